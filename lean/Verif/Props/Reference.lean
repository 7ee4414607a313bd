/-
Post processing of references (`annotation/reference_annotator.py`): C33 (alignment, tags kept), C68 ("et al"),
C69 (text behind names), C70 (text before identifiers), C71 (references do not influence each other), C72 (merging sub tags).
-/
import Verif.Lemmas.RefAll
import Verif.Lemmas.LoadText
import Verif.Lemmas.Ok
import Verif.Props.SimpleMatching

namespace Verif

/-! ### C71 References -/

/-- **C71.** The tokens are processed by reference: in the runs of neighbouring tokens of one main entity. Together
these are all tokens, in order. -/
theorem C71_references (d : Doc) (l : List Nat) :
    (refEntities d l).map Prod.snd = Spec.references d l ∧ (Spec.references d l).flatten = l ∧
    ∀ e ∈ Spec.references d l, e ≠ [] :=
  ⟨refEntities_eq d l, references_flatten d l, references_ne_nil d l⟩

theorem annotate_eq (env : RefEnv) (cfg : RefConfig) (d : Doc) :
    referenceAnnotate env cfg d = (Spec.references d d.nonSpaceTokens).foldlM (fun d e => refEntity env cfg d e) d := by
  unfold referenceAnnotate
  rw [← refEntities_eq, List.foldlM_map]

/-! ### C33 -/

/-- What is known about a document which is processed: it is loaded (and possibly annotated), and sub tags have a
value. -/
structure RefReady (env : RefEnv) (d : Doc) : Prop where
  nodup : d.nonSpaceTokens.Nodup
  proper : ∀ i ∈ d.nonSpaceTokens, Spec.ProperTag (d.getSubTag i)
  text : ∀ i ∈ d.nonSpaceTokens, d.getText env.cc i ≠ []

/-- Documents are ready after loading and annotating. -/
theorem refReady_loadDoc {env : RefEnv} {dc : DocCfg} {root : Elem} {d0 d : Doc} (hl : loadDoc dc root = .ok d0) (hs : SameBut d0 d)
    (hcc : env.cc = dc.cc) (hp : ∀ i ∈ d.nonSpaceTokens, Spec.ProperTag (d.getSubTag i)) : RefReady env d :=
  ⟨(nodup_loadDoc hl hs).2, hp, by rw [hcc]; exact getText_loadDoc hl hs⟩

/-- **C33.** Neither text nor main tags change. Sub tags change only for tokens which are not space, by reference:
each step gives a tag for each token. -/
theorem C33_effect {env : RefEnv} {cfg : RefConfig} {d d' : Doc} (hm : Spec.ProperMap cfg.subTagMap) (hr : RefReady env d)
    (h : referenceAnnotate env cfg d = .ok d') :
    SameBut d d' ∧ (∀ j, d'.getTag j = d.getTag j) ∧ (∀ j, d'.getPreservedTag j = d.getPreservedTag j) ∧
    (∀ j, j ∉ d.nonSpaceTokens → d'.getSubTag j = d.getSubTag j) ∧
    ∀ e ∈ Spec.references d d.nonSpaceTokens, ∃ t1 t2 t3,
      Spec.RefSteps env cfg d e (e.map d.getSubTag) t1 t2 t3 (e.map d'.getSubTag) ∧
      t1.length = e.length ∧ t2.length = e.length ∧ t3.length = e.length := by
  rw [annotate_eq] at h
  have hf := references_flatten d d.nonSpaceTokens
  obtain ⟨h1, h2, h3⟩ := refFold_effect hm _ (by rw [hf]; exact hr.nodup) d d' h (by rw [hf]; exact hr.proper) (by rw [hf]; exact hr.text)
  rw [hf] at h2
  refine ⟨h1.same, fun j => h1.getTag j, fun j => h1.attrs j _ (by decide) (by decide), h2, ?_⟩
  intro e he
  obtain ⟨t1, t2, t3, r⟩ := h3 e he
  have hmem : ∀ i ∈ e, i ∈ d.nonSpaceTokens := fun i hi => by rw [← hf]; exact List.mem_flatten.2 ⟨e, he, hi⟩
  have := r.rels hm (fun i hi => hr.proper i (hmem i hi)) (fun i hi => hr.text i (hmem i hi))
  have l1 := this.1.1
  rw [List.length_map] at l1
  exact ⟨t1, t2, t3, r, l1, by rw [this.2.1.1, l1], by rw [this.2.2.1.1, this.2.1.1, l1]⟩

theorem reference_rel {env : RefEnv} {cfg : RefConfig} {d d' : Doc} (hm : Spec.ProperMap cfg.subTagMap) (hr : RefReady env d)
    (h : referenceAnnotate env cfg d = .ok d') (j : Nat) (hj : j ∈ d.nonSpaceTokens) :
    ∃ x1 x2 x3, EtalValRel cfg.subTagMap cfg.etal cfg.etalMerge (d.getSubTag j) x1 ∧ MapRel cfg.subTagMap x1 x2 ∧
      MapRel cfg.subTagMap x2 x3 ∧ MapRel cfg.subTagMap x3 (d'.getSubTag j) := by
  obtain ⟨_, _, _, _, h5⟩ := C33_effect hm hr h
  have hf := references_flatten d d.nonSpaceTokens
  rw [← hf] at hj
  obtain ⟨e, he, hje⟩ := List.mem_flatten.1 hj
  obtain ⟨t1, t2, t3, r, _⟩ := h5 e he
  have hmem : ∀ i ∈ e, i ∈ d.nonSpaceTokens := fun i hi => by rw [← hf]; exact List.mem_flatten.2 ⟨e, he, hi⟩
  obtain ⟨p1, p2, p3, p4⟩ := r.rels hm (fun i hi => hr.proper i (hmem i hi)) (fun i hi => hr.text i (hmem i hi))
  obtain ⟨k, hk⟩ := List.mem_iff_getElem?.1 hje
  obtain ⟨x1, g1, q1⟩ := p1.get (i := k) (a := d.getSubTag j) (by rw [List.getElem?_map, hk]; rfl)
  obtain ⟨x2, g2, q2⟩ := p2.get g1
  obtain ⟨x3, g3, q3⟩ := p3.get g2
  obtain ⟨x4, g4, q4⟩ := p4.get g3
  rw [List.getElem?_map, hk] at g4
  cases g4
  exact ⟨x1, x2, x3, q1, q2, q3, q4⟩

/-- **C33.** A tagged token is never made untagged, and all sub tags have a value. -/
theorem C33_stays_tagged {env : RefEnv} {cfg : RefConfig} {d d' : Doc} (hm : Spec.ProperMap cfg.subTagMap) (hr : RefReady env d)
    (h : referenceAnnotate env cfg d = .ok d') (j : Nat) (hj : j ∈ d.nonSpaceTokens) :
    (d.getSubTag j ≠ none → d'.getSubTag j ≠ none) ∧ Spec.ProperTag (d'.getSubTag j) := by
  obtain ⟨x1, x2, x3, q1, q2, q3, q4⟩ := reference_rel hm hr h j hj
  exact ⟨fun hn => q4.1.1 (q3.1.1 (q2.1.1 (q1.1.1 hn))), q4.1.2⟩

/-- **C33.** The value of a sub tag afterwards: the name is mapped, four times in all; "et al" may have become one of the
values to be merged with it, which is mapped three times. -/
theorem C33_values {env : RefEnv} {cfg : RefConfig} {d d' : Doc} (hm : Spec.ProperMap cfg.subTagMap) (hr : RefReady env d)
    (h : referenceAnnotate env cfg d = .ok d') (j : Nat) (hj : j ∈ d.nonSpaceTokens) (v : Str)
    (hv : Spec.tagValue (d.getSubTag j) = some v) :
    ∃ w, (w = Spec.mappedName cfg.subTagMap v ∨ (Spec.mappedName cfg.subTagMap v = cfg.etal ∧ w ∈ cfg.etalMerge)) ∧
      Spec.tagValue (d'.getSubTag j) =
        some (Spec.mappedName cfg.subTagMap (Spec.mappedName cfg.subTagMap (Spec.mappedName cfg.subTagMap w))) := by
  obtain ⟨x1, x2, x3, q1, q2, q3, q4⟩ := reference_rel hm hr h j hj
  obtain ⟨w, hw, hc⟩ := q1.2 v hv
  exact ⟨w, hc, q4.2 _ (q3.2 _ (q2.2 _ hw))⟩

/-- **C33.** Where mapping a name again changes nothing and the values to be merged with "et al" are not mapped (as in the
default configuration), the value is the mapped one, or one to be merged with "et al" instead of it. -/
theorem C33_values_once {env : RefEnv} {cfg : RefConfig} {d d' : Doc} (hm : Spec.ProperMap cfg.subTagMap) (hr : RefReady env d)
    (hi : ∀ x, Spec.mappedName cfg.subTagMap (Spec.mappedName cfg.subTagMap x) = Spec.mappedName cfg.subTagMap x)
    (he : ∀ w ∈ cfg.etalMerge, Spec.mappedName cfg.subTagMap w = w)
    (h : referenceAnnotate env cfg d = .ok d') (j : Nat) (hj : j ∈ d.nonSpaceTokens) (v : Str)
    (hv : Spec.tagValue (d.getSubTag j) = some v) :
    Spec.tagValue (d'.getSubTag j) = some (Spec.mappedName cfg.subTagMap v) ∨
    (Spec.mappedName cfg.subTagMap v = cfg.etal ∧ ∃ w ∈ cfg.etalMerge, Spec.tagValue (d'.getSubTag j) = some w) := by
  obtain ⟨w, hw, hd⟩ := C33_values hm hr h j hj v hv
  rcases hw with rfl | ⟨h1, h2⟩
  · left; rw [hd, hi, hi, hi]
  · right; exact ⟨h1, w, h2, by rw [hd, he w h2, he w h2, he w h2]⟩

/-- **C33.** Processing succeeds if there is a pattern for each value whose text before is to be included. -/
theorem C33_total {env : RefEnv} {cfg : RefConfig} {d : Doc} (hm : Spec.ProperMap cfg.subTagMap) (hr : RefReady env d)
    (hp : ∀ v ∈ cfg.prefixTags, cfg.prefixRegex.get? v ≠ none) : ∃ d', referenceAnnotate env cfg d = .ok d' := by
  rw [annotate_eq]
  have hf := references_flatten d d.nonSpaceTokens
  exact refFold_ok hm _ (by rw [hf]; exact hr.nodup) d (by rw [hf]; exact hr.proper) (by rw [hf]; exact hr.text) hp

/-- **C71.** References do not influence each other: with the same sub tags and text of the tokens of a reference its
tokens have the same sub tags afterwards, whatever the rest of the documents. -/
theorem C71_local {env : RefEnv} {cfg : RefConfig} {d d' c c' : Doc} (hm : Spec.ProperMap cfg.subTagMap) (hd : RefReady env d) (hc : RefReady env c)
    (h : referenceAnnotate env cfg d = .ok d') (h' : referenceAnnotate env cfg c = .ok c') (e : List Nat)
    (he : e ∈ Spec.references d d.nonSpaceTokens) (he' : e ∈ Spec.references c c.nonSpaceTokens)
    (hs : ∀ i ∈ e, d.getSubTag i = c.getSubTag i ∧ d.getText env.cc i = c.getText env.cc i ∧ d.getWhitespace i = c.getWhitespace i) :
    ∀ i ∈ e, d'.getSubTag i = c'.getSubTag i := by
  obtain ⟨t1, t2, t3, r, _⟩ := (C33_effect hm hd h).2.2.2.2 e he
  obtain ⟨u1, u2, u3, q, _⟩ := (C33_effect hm hc h').2.2.2.2 e he'
  have hw : ∀ tags, Spec.withText env.cc d cfg.subTagMap e tags = Spec.withText env.cc c cfg.subTagMap e tags := by
    intro tags
    unfold Spec.withText
    apply List.map_congr_left
    intro x hx
    have := hs x.1 (List.of_mem_zip hx).1
    rw [this.2.1, this.2.2]
  have e0 : e.map d.getSubTag = e.map c.getSubTag := List.map_congr_left fun i hi => (hs i hi).1
  have e1 : t1 = u1 := by rw [r.etal, q.etal, e0]
  have e2 : t2 = u2 := by rw [r.suffixes, q.suffixes, hw, e1]
  have e3 : t3 = u3 := by
    have a := r.prefixes
    rw [hw, e2, q.prefixes] at a
    exact (Except.ok.inj a).symm
  have e4 : e.map d'.getSubTag = e.map c'.getSubTag := by rw [r.merged, q.merged, e3]
  intro i hi
  exact List.map_inj_left.1 e4 i hi

/-! ### C68 Et al -/

/-- **C68.** A run of "et al" tags behind a run of tags to be merged with it, with nothing but untagged tokens and "et al"
in between, continues the tags of that run: it gets its first tag, and then inside tags. -/
theorem C68_etal (etal : Str) (merge : List Str) (hne : etal ∉ merge) (a r u e b : List (Option Str)) (v : Str) (t : Option Str)
    (hp : ∀ x ∈ a ++ r ++ u ++ e ++ b, Spec.ProperTag x) (hv : v ∈ merge) (ht : r.head? = some t)
    (hr : Spec.MaximalRun (some v) a r (u ++ e ++ b)) (hu : ∀ x ∈ u, x = none ∨ Spec.tagValue x = some etal)
    (he : Spec.MaximalRun (some etal) (a ++ r ++ u) e b) :
    Spec.part (etalMapped etal merge (a ++ r ++ u ++ e ++ b)) (a ++ r ++ u).length e.length =
      t :: List.replicate (e.length - 1) (Spec.insideTag t) := by
  have hr' : Spec.MaximalRun (some v) a r u := by
    refine ⟨hr.nonempty, hr.value, hr.left, ?_⟩
    intro x hx
    exact hr.right x (by rw [List.append_assoc, List.head?_append, hx]; rfl)
  have htv : Spec.tagValue t = some v := hr.value t (List.mem_of_mem_head? ht)
  have hvne : v ≠ etal := fun h => hne (h ▸ hv)
  have htp : Spec.ProperTag t := hp t (by
    have := List.mem_of_mem_head? ht
    simp [this])
  have htr : truthy t = true := (truthy_iff_ne_none htp).2 (by intro hc; rw [hc] at htv; cases htv)
  unfold etalMapped
  rw [groupBy_maximal he, groupBy_maximal hr', etalLoop_append]
  have hprev : List.foldl (etalNext etal merge) none ((groupBy stripTagPrefix a).map (·.2) ++ r :: (groupBy stripTagPrefix u).map (·.2)) = t := by
    rw [List.foldl_append, List.foldl_cons, etalNext_accepted ht htv hv hvne]
    apply etalNext_passive _ _ _ (tagGroups_groupBy u (fun x hx => hp x (by simp [hx]))) _ _ htr
    intro g hg x hx
    have : x ∈ u := by
      rw [← groupBy_flatten stripTagPrefix u]
      exact List.mem_flatten.2 ⟨g, hg, hx⟩
    exact hu x this
  rw [hprev]
  have hlen := (etalMapped_rel etal merge (a ++ r ++ u) (fun x hx => hp x (by
    rw [List.append_assoc]; exact List.mem_append_left _ hx))).1
  unfold etalMapped at hlen
  rw [groupBy_maximal hr'] at hlen
  cases e with
  | nil => exact absurd rfl he.nonempty
  | cons x xs =>
    have hxv : Spec.tagValue x = some etal := he.value x (by simp)
    rw [etalLoop_cons, if_neg (by simp [hxv, htr]), toInsideTag_eq htp, ← List.append_assoc]
    exact part_append_mid _ _ _ _ _ hlen.symm (by simp)

/-- **C68.** Other tags are kept. -/
theorem C68_others (etal : Str) (merge : List Str) (tags : List (Option Str)) (hp : ∀ x ∈ tags, Spec.ProperTag x) :
    (etalMapped etal merge tags).length = tags.length ∧
    ∀ (i : Nat) t, tags[i]? = some t → Spec.tagValue t ≠ some etal → (etalMapped etal merge tags)[i]? = some t := by
  have h := etalMapped_rel etal merge tags hp
  refine ⟨h.1, ?_⟩
  intro i t ht hn
  obtain ⟨t', h1, h2⟩ := h.get ht
  rcases h2 with rfl | ⟨h3, _⟩
  · exact h1
  · exact absurd h3 hn

/-- **C68.** A run of "et al" tags is kept if there is no tag to be merged with it before, with nothing but untagged tokens and
"et al" in between. -/
theorem C68_none_before (etal : Str) (merge : List Str) (a e b : List (Option Str))
    (hp : ∀ x ∈ a ++ e ++ b, Spec.ProperTag x) (he : Spec.MaximalRun (some etal) a e b)
    (hno : ∀ a' t u, a = a' ++ t :: u → (∀ x ∈ u, x = none ∨ Spec.tagValue x = some etal) → ∀ v ∈ merge, Spec.tagValue t ≠ some v) :
    Spec.part (etalMapped etal merge (a ++ e ++ b)) a.length e.length = e := by
  unfold etalMapped
  rw [groupBy_maximal he, etalLoop_append]
  have hpa : ∀ x ∈ a, Spec.ProperTag x := fun x hx => hp x (by simp [hx])
  have hlen := (etalMapped_rel etal merge a hpa).1
  unfold etalMapped at hlen
  have hprev : truthy (List.foldl (etalNext etal merge) none ((groupBy stripTagPrefix a).map (·.2))) = false := by
    cases hc : truthy (List.foldl (etalNext etal merge) none ((groupBy stripTagPrefix a).map (·.2))) with
    | false => rfl
    | true =>
      exfalso
      rcases etalNext_cases etal merge _ (tagGroups_groupBy a hpa) none hc with ⟨_, h⟩ | ⟨gs1, g, gs2, v, h1, h2, h3, h4, h5⟩
      · cases h
      · have hfl : a = gs1.flatten ++ g ++ gs2.flatten := by
          rw [← groupBy_flatten stripTagPrefix a, h1, List.flatten_append, List.flatten_cons, List.append_assoc]
        have hg := List.dropLast_concat_getLast h3
        refine hno (gs1.flatten ++ g.dropLast) (g.getLast h3) gs2.flatten ?_ ?_ v h4 (h2 _ (List.getLast_mem h3))
        · rw [hfl]
          conv => lhs; rw [← hg]
          simp
        · intro x hx
          obtain ⟨g', hg', hx'⟩ := List.mem_flatten.1 hx
          exact h5 g' hg' x hx'
  generalize List.foldl (etalNext etal merge) none ((groupBy stripTagPrefix a).map (·.2)) = prev at hprev
  cases e with
  | nil => exact absurd rfl he.nonempty
  | cons x xs =>
    rw [etalLoop_cons, if_pos (.inr hprev), ← List.append_assoc]
    exact part_append_mid _ _ _ _ _ hlen.symm (by simp)

/-! ### C69 Text behind names -/

theorem suffixExtended_length (enabled : List Str) (toks : List RefTok) (hp : ∀ x ∈ toks, Spec.ProperTag x.1)
    (ht : ∀ x ∈ toks, x.2.1 ≠ []) : (suffixExtended enabled toks).length = toks.length :=
  (suffixExtended_rel enabled toks hp ht).1

/-- **C69.** Untagged tokens behind a run of tags: the first one becomes part of the run if its value is enabled and the token
begins with a dot; the others stay untagged. -/
theorem C69_suffix (enabled : List Str) (a r b : List RefTok) (u : RefTok) (us : List RefTok) (x : RefTok) (v : Str)
    (hp : ∀ x ∈ a ++ r ++ (u :: us) ++ b, Spec.ProperTag x.1) (ht : ∀ x ∈ a ++ r ++ (u :: us) ++ b, x.2.1 ≠ [])
    (hx : r.head? = some x)
    (hr : Spec.MaximalRun (some v) (a.map (·.1)) (r.map (·.1)) (((u :: us) ++ b).map (·.1)))
    (hu : Spec.MaximalRun none ((a ++ r).map (·.1)) ((u :: us).map (·.1)) (b.map (·.1))) :
    Spec.part (suffixExtended enabled (a ++ r ++ (u :: us) ++ b)) (a ++ r).length (us.length + 1) =
      (if v ∈ enabled ∧ u.2.1.head? = some '.' then Spec.insideTag x.1 else none) :: List.replicate us.length none := by
  have hr' : Spec.MaximalRun (some v) (a.map (·.1)) (r.map (·.1)) (([] : List RefTok).map (·.1)) :=
    ⟨hr.nonempty, hr.value, hr.left, by simp⟩
  have hgr := groupBy_maximal_toks hr'
  rw [List.append_nil] at hgr
  have hlen := suffixExtended_length enabled (a ++ r) (fun y hy => hp y (by
      rw [List.append_assoc]; exact List.mem_append_left _ hy))
    (fun y hy => ht y (by rw [List.append_assoc]; exact List.mem_append_left _ hy))
  unfold suffixExtended at hlen ⊢
  rw [groupBy_maximal_toks hu, suffixLoop_append]
  have hlast : ((groupBy (fun t : RefTok => stripTagPrefix t.1) (a ++ r)).map (·.2)).getLast?.or none = some r := by
    rw [hgr]
    simp [groupBy]
  rw [hlast, suffixLoop_cons]
  have hx1 : firstRefTag (some r) = x.1 := by
    unfold firstRefTag
    rw [Option.bind_some, hx]; rfl
  have hun : ∀ y ∈ u :: us, y.1 = none := fun y hy => tagValue_none_iff.1 (hu.value y.1 (List.mem_map_of_mem hy))
  have hxp : Spec.ProperTag x.1 := hp x (by have := List.mem_of_mem_head? hx; simp [this])
  have hxv : Spec.tagValue x.1 = some v := hr.value x.1 (List.mem_map_of_mem (List.mem_of_mem_head? hx))
  rw [suffixGroup_gap enabled (some r) u us (hun u (by simp)) (fun y hy => hun y (List.mem_cons_of_mem _ hy)) (ht u (by simp))
    (by rw [hx1]; exact hxp), hx1]
  have hif : (if ∃ v ∈ enabled, Spec.tagValue x.1 = some v ∧ u.2.1.head? = some '.' then Spec.insideTag x.1 else none) =
      (if v ∈ enabled ∧ u.2.1.head? = some '.' then Spec.insideTag x.1 else none) := by
    by_cases h : v ∈ enabled ∧ u.2.1.head? = some '.'
    · rw [if_pos h, if_pos ⟨v, h.1, hxv, h.2⟩]
    · rw [if_neg h, if_neg]
      rintro ⟨w, hw, h1, h2⟩
      rw [hxv] at h1
      cases h1
      exact h ⟨hw, h2⟩
  rw [hif, ← List.append_assoc]
  exact part_append_mid _ _ _ _ _ hlen.symm (by simp)

/-- **C69.** Tagged tokens keep their tags, and untagged tokens at the beginning stay untagged. -/
theorem C69_others (enabled : List Str) (toks : List RefTok) (hp : ∀ x ∈ toks, Spec.ProperTag x.1) (ht : ∀ x ∈ toks, x.2.1 ≠ []) :
    (suffixExtended enabled toks).length = toks.length ∧
    (∀ (i : Nat) x, toks[i]? = some x → x.1 ≠ none → (suffixExtended enabled toks)[i]? = some x.1) ∧
    ∀ a b, toks = a ++ b → (∀ x ∈ a, x.1 = none) → (suffixExtended enabled toks).take a.length = List.replicate a.length none := by
  have h := suffixExtended_rel enabled toks hp ht
  refine ⟨h.1, ?_, ?_⟩
  · intro i x hx hn
    obtain ⟨t', h1, h2⟩ := h.get hx
    rcases h2 with rfl | ⟨h3, _⟩
    · exact h1
    · exact absurd h3 hn
  · intro a b he ha
    -- the first group contains `a`
    cases a with
    | nil => rfl
    | cons u us =>
      have hu0 := ha u (by simp)
      let p : RefTok → Bool := fun x => decide (x.1 = none)
      have hsplit : toks = (toks.takeWhile p) ++ toks.dropWhile p := List.takeWhile_append_dropWhile.symm
      have hpre : ∃ c, toks.takeWhile p = u :: us ++ c := by
        rw [he, List.takeWhile_append_of_pos (by intro x hx; exact decide_eq_true (ha x hx))]
        exact ⟨_, rfl⟩
      obtain ⟨c, hc⟩ := hpre
      have hall : ∀ x ∈ u :: us ++ c, x.1 = none := by
        intro x hx
        rw [← hc] at hx
        have := List.all_eq_true.1 (List.all_takeWhile (p := p) (l := toks)) x hx
        exact of_decide_eq_true this
      rw [hc] at hsplit
      have hmax : Spec.MaximalRun none (([] : List RefTok).map (·.1)) ((u :: us ++ c).map (·.1)) ((toks.dropWhile p).map (·.1)) := by
        refine ⟨by simp, ?_, by simp, ?_⟩
        · intro t ht
          obtain ⟨x, hx, rfl⟩ := List.mem_map.1 ht
          rw [hall x hx]; rfl
        · intro t ht
          rw [List.head?_map] at ht
          cases hd : (toks.dropWhile p).head? with
          | none => rw [hd] at ht; cases ht
          | some y =>
            rw [hd] at ht
            cases ht
            have := List.head?_dropWhile_not p toks
            rw [hd] at this
            have h2 : ¬ y.1 = none := of_decide_eq_false this
            exact fun hc => h2 (tagValue_none_iff.1 hc)
      have hg := groupBy_maximal_toks hmax
      rw [List.nil_append, ← hsplit] at hg
      unfold suffixExtended
      rw [hg]
      show (suffixLoop enabled none ((u :: us ++ c) :: _)).take _ = _
      rw [suffixLoop_cons, List.cons_append, suffixGroup_gap enabled none u (us ++ c) hu0
        (fun x hx => hall x (by rw [List.cons_append]; exact List.mem_cons_of_mem _ hx)) (ht u (by rw [he]; simp)) properTag_none]
      rw [if_neg (by rintro ⟨_, _, h, _⟩; cases h)]
      rw [List.length_append, ← List.replicate_append_replicate]
      simp [List.take_append, List.replicate_succ]

/-! ### C70 Text before identifiers -/

theorem insideHead_none {l : List (Option Str)} (h : ∀ t ∈ l, t = none) : insideHead l = l := by
  cases l with
  | nil => rfl
  | cons t l => rw [h t (by simp)]; rfl

theorem prefixGroup_false (g : List RefTok) (next : Option Str) : prefixGroup false g next 0 = g.map (·.1) := rfl

theorem part_append_two {α : Type} (a x y b : List α) (n m : Nat) (hn : n = a.length) (hm : m = x.length + y.length) :
    Spec.part (a ++ (x ++ (y ++ b))) n m = x ++ y := by
  rw [← List.append_assoc x, ← List.append_assoc a]
  exact part_append_mid _ _ _ _ _ hn (by rw [hm, List.length_append])

theorem prefixCount_head {g : List RefTok} (hgne : g ≠ []) (hun : ∀ y ∈ g, y.1 = none) :
    truthy (g.map (·.1)).head?.join = false := by
  cases g with
  | nil => exact absurd rfl hgne
  | cons y ys => rw [List.map_cons, hun y (by simp)]; rfl

theorem prefixCount_error {env : RefEnv} {regex : Dict Str} {enabled : List Str} {g : List RefTok} (hgne : g ≠ []) (hun : ∀ y ∈ g, y.1 = none)
    {next : Option Str} {v : Str} (hv : Spec.tagValue next = some v) (hm : v ∈ enabled) (hr : regex.get? v = none) :
    prefixCount env regex enabled g next = .error .keyError := by
  unfold prefixCount
  rw [if_neg (by rw [prefixCount_head hgne hun]; simp), stripTagPrefix_eq_tagValue, hv]
  simp only []
  rw [if_neg (by simpa using hm), hr]

theorem prefixCount_gap {env : RefEnv} {regex : Dict Str} {enabled : List Str} {g : List RefTok} (hgne : g ≠ []) (hun : ∀ y ∈ g, y.1 = none)
    {next : Option Str} {v : Str} (hv : Spec.tagValue next = some v) :
    (v ∉ enabled → prefixCount env regex enabled g next = .ok 0) ∧
    (v ∈ enabled → ∀ {pattern}, regex.get? v = some pattern →
      (env.search pattern (Spec.gapText g) = none → prefixCount env regex enabled g next = .ok 0) ∧
      (∀ start, env.search pattern (Spec.gapText g) = some start →
        prefixCount env regex enabled g next = .ok (itemsBetween start (refJoined g).1.length (refJoined g).2).length)) := by
  have hj : (refJoined g).1 = Spec.gapText g := by rw [refJoined_eq hgne]
  have h0 := prefixCount_head hgne hun
  unfold prefixCount
  rw [if_neg (by rw [h0]; simp), stripTagPrefix_eq_tagValue, hv]
  simp only []
  refine ⟨fun h => by rw [if_pos h], fun h pattern hr => ?_⟩
  rw [if_neg (by simpa using h), hr]
  simp only []
  rw [hj]
  exact ⟨fun hs => by rw [hs], fun start hs => by rw [hs]⟩

/-- **C70.** Untagged tokens before a run of tags. If the pattern of the value is found in their text, the tokens from its
first character on become part of the run, which begins with the first of them. -/
theorem C70_prefix {env : RefEnv} {regex : Dict Str} {enabled : List Str} {a g b : List RefTok} {x : RefTok} {xs : List RefTok} {v : Str}
    {out : List (Option Str)} (h : prefixExtended env regex enabled (a ++ g ++ (x :: xs) ++ b) = .ok out)
    (hp : ∀ y ∈ a ++ g ++ (x :: xs) ++ b, Spec.ProperTag y.1) (ht : ∀ y ∈ a ++ g ++ (x :: xs) ++ b, y.2.1 ≠ [])
    (hg : Spec.MaximalRun none (a.map (·.1)) (g.map (·.1)) (((x :: xs) ++ b).map (·.1)))
    (hr : Spec.MaximalRun (some v) ((a ++ g).map (·.1)) ((x :: xs).map (·.1)) (b.map (·.1))) :
    (∀ start, Spec.ExtendsLeft env regex enabled g (some v) start →
      ∃ u1 u u2, g = u1 ++ u :: u2 ∧ (Spec.gapText u1).length ≤ start ∧ start < (Spec.gapText (u1 ++ [u])).length ∧
        Spec.part out a.length (g.length + (xs.length + 1)) =
          List.replicate u1.length none ++ x.1 :: List.replicate u2.length (Spec.insideTag x.1) ++
            Spec.insideTag x.1 :: xs.map (·.1)) ∧
    ((∀ start, ¬ Spec.ExtendsLeft env regex enabled g (some v) start) →
      Spec.part out a.length (g.length + (xs.length + 1)) = List.replicate g.length none ++ x.1 :: xs.map (·.1)) := by
  have hgne : g ≠ [] := fun e => hg.nonempty (by rw [e]; rfl)
  have hun : ∀ y ∈ g, y.1 = none := fun y hy => tagValue_none_iff.1 (hg.value y.1 (List.mem_map_of_mem hy))
  have hgn : g.map (·.1) = List.replicate g.length none := by
    rw [List.eq_replicate_iff]
    refine ⟨by simp, ?_⟩
    intro t ht
    obtain ⟨y, hy, rfl⟩ := List.mem_map.1 ht
    exact hun y hy
  have hgs := refGroups_groupBy _ hp
  unfold prefixExtended at h
  have hg' : Spec.MaximalRun none (a.map (·.1)) (g.map (·.1)) (([] : List RefTok).map (·.1)) :=
    ⟨hg.nonempty, hg.value, hg.left, by simp⟩
  have hga := groupBy_maximal_toks hg'
  rw [List.append_nil] at hga
  rw [groupBy_maximal_toks hr, hga] at h hgs
  have hnil : (groupBy (fun t : RefTok => stripTagPrefix t.1) ([] : List RefTok)).map (·.2) = [] := rfl
  rw [hnil, List.append_assoc] at h hgs
  obtain ⟨o1, o2, c, h1, h2, h3, h4, h5⟩ := prefixLoop_append env regex enabled _ _ hgs false out h
  rw [groupBy_flatten] at h2
  have hxp : Spec.ProperTag x.1 := hp x (by simp)
  have hxv : Spec.tagValue x.1 = some v := hr.value x.1 (by simp)
  have hxt : truthy x.1 = true := (truthy_iff_ne_none hxp).2 (by intro hc; rw [hc] at hxv; cases hxv)
  have hgp : ∀ y ∈ g, Spec.ProperTag y.1 := fun y hy => by rw [hun y hy]; exact properTag_none
  have hrp : ∀ y ∈ x :: xs, Spec.ProperTag y.1 := fun y hy => hp y (by
    rw [List.mem_append, List.mem_append]; exact .inl (.inr hy))
  show _ ∧ _
  change prefixLoop env regex enabled c (g :: (x :: xs) :: (groupBy (fun t : RefTok => stripTagPrefix t.1) b).map (·.2)) = .ok o2 at h3
  rw [prefixLoop_cons _ _ _ _ _ _ hgp] at h3
  have hnext : firstRefTag ((x :: xs) :: (groupBy (fun t : RefTok => stripTagPrefix t.1) b).map (·.2)).head? = x.1 := rfl
  rw [hnext] at h3
  cases hn : prefixCount env regex enabled g x.1 with
  | error er => rw [hn] at h3; cases h3
  | ok n =>
    rw [hn] at h3
    simp only [] at h3
    rw [prefixLoop_cons _ _ _ _ _ _ hrp] at h3
    have hcount : ∀ nx, prefixCount env regex enabled (x :: xs) nx = .ok 0 := by
      intro nx
      unfold prefixCount
      rw [if_pos (by simpa using hxt)]
    rw [hcount] at h3
    simp only [] at h3
    cases hr2 : prefixLoop env regex enabled (decide ((0 : Nat) ≠ 0)) ((groupBy (fun t : RefTok => stripTagPrefix t.1) b).map (·.2)) with
    | error er => rw [hr2] at h3; cases h3
    | ok o =>
      rw [hr2] at h3
      have h3 := Except.ok.inj h3
      have hgapc : (if c = true then insideHead (g.map (·.1)) else g.map (·.1)) = g.map (·.1) := by
        split
        · apply insideHead_none
          intro t ht
          rw [hgn] at ht
          exact (List.mem_replicate.1 ht).2
        · rfl
      obtain ⟨hA, hC⟩ := prefixCount_gap (env := env) (regex := regex) (enabled := enabled) hgne hun hxv
      have htg : ∀ y ∈ g, y.2.1 ≠ [] := fun y hy => ht y (by simp [hy])
      subst h1
      rw [← h3]
      constructor
      · rintro start ⟨s, pattern, hs1, hs2, hs3, hs4, hs5⟩
        cases hs1
        obtain ⟨u1, u, u2, e1, e2, e3, e4⟩ := refJoined_from htg hgne start hs5
        rw [(hC hs2 hs3).2 start hs4, e4] at hn
        have hn := (Except.ok.inj hn).symm
        refine ⟨u1, u, u2, e1, e2, e3, ?_⟩
        subst hn
        have hgl : g.length = u1.length + (u2.length + 1) := by rw [e1]; simp
        have p1 : prefixGroup c g x.1 (u2.length + 1) =
            List.replicate u1.length none ++ x.1 :: List.replicate u2.length (Spec.insideTag x.1) := by
          unfold prefixGroup
          simp only []
          rw [hgapc, if_neg (by omega), List.length_map, hgl, toInsideTag_eq hxp]
          congr 2
          omega
        have p2 : ∀ nx, prefixGroup (decide (u2.length + 1 ≠ 0)) (x :: xs) nx 0 = Spec.insideTag x.1 :: xs.map (·.1) := by
          intro nx
          unfold prefixGroup
          simp only []
          rw [if_pos trivial, if_pos (decide_eq_true (by omega)), List.map_cons]
          show toInsideTag x.1 :: _ = _
          rw [toInsideTag_eq hxp]
        rw [p1, p2]
        exact part_append_two _ _ _ _ _ _ h2.symm (by simp; omega)
      · intro hno
        have hn0 : n = 0 := by
          by_cases hm : v ∈ enabled
          · cases hre : regex.get? v with
            | none => rw [prefixCount_error hgne hun hxv hm hre] at hn; cases hn
            | some pattern =>
              cases hse : env.search pattern (Spec.gapText g) with
              | none => rw [(hC hm hre).1 hse] at hn; exact (Except.ok.inj hn).symm
              | some start =>
                rw [(hC hm hre).2 start hse] at hn
                have hge : (Spec.gapText g).length ≤ start := by
                  refine Classical.byContradiction fun hc => hno start ⟨v, pattern, rfl, hm, hre, hse, by omega⟩
                rw [refJoined_end hgne start hge] at hn
                exact (Except.ok.inj hn).symm
          · rw [hA hm] at hn; exact (Except.ok.inj hn).symm
        subst hn0
        have p1 : prefixGroup c g x.1 0 = List.replicate g.length none := by
          unfold prefixGroup
          simp only []
          rw [hgapc, if_pos trivial, hgn]
        rw [p1]
        have p2 : ∀ nx, prefixGroup (decide ((0 : Nat) ≠ 0)) (x :: xs) nx 0 = x.1 :: xs.map (·.1) := fun nx => rfl
        rw [p2]
        exact part_append_two _ _ _ _ _ _ h2.symm (by simp)

/-- **C70.** A run of tags without untagged tokens before it keeps its tags. -/
theorem C70_no_gap {env : RefEnv} {regex : Dict Str} {enabled : List Str} {a r b : List RefTok} {v : Str}
    {out : List (Option Str)} (h : prefixExtended env regex enabled (a ++ r ++ b) = .ok out)
    (hp : ∀ y ∈ a ++ r ++ b, Spec.ProperTag y.1)
    (hr : Spec.MaximalRun (some v) (a.map (·.1)) (r.map (·.1)) (b.map (·.1)))
    (ha : ∀ y, a.getLast? = some y → y.1 ≠ none) : Spec.part out a.length r.length = r.map (·.1) := by
  have hgs := refGroups_groupBy _ hp
  unfold prefixExtended at h
  rw [groupBy_maximal_toks hr] at h hgs
  obtain ⟨o1, o2, c, h1, h2, h3, h4, h5⟩ := prefixLoop_append env regex enabled _ _ hgs false out h
  rw [groupBy_flatten] at h2
  have hc : c = false := by
    cases hl : ((groupBy (fun t : RefTok => stripTagPrefix t.1) a).map (·.2)).getLast? with
    | none => exact h4 (List.getLast?_eq_none_iff.1 hl)
    | some gl =>
      cases c with
      | false => rfl
      | true =>
        exfalso
        have hn := h5 gl hl rfl
        obtain ⟨gs, e⟩ := List.getLast?_eq_some_iff.1 hl
        have hfl : a = gs.flatten ++ gl := by
          rw [← groupBy_flatten (fun t : RefTok => stripTagPrefix t.1) a, e, List.flatten_append]; simp
        have hgl : gl ≠ [] := (hgs gl (by rw [e]; simp)).1
        refine ha (gl.getLast hgl) ?_ (hn _ (List.getLast_mem hgl))
        rw [hfl, List.getLast?_append, List.getLast?_eq_some_getLast hgl]; rfl
  subst hc
  cases r with
  | nil => exact absurd rfl hr.nonempty
  | cons x xs =>
    have hxv : Spec.tagValue x.1 = some v := hr.value x.1 (by simp)
    have hxp : Spec.ProperTag x.1 := hp x (by simp)
    have hxt : truthy x.1 = true := (truthy_iff_ne_none hxp).2 (by intro hc; rw [hc] at hxv; cases hxv)
    rw [prefixLoop_cons _ _ _ _ _ _ (fun y hy => hp y (List.mem_append_left _ (List.mem_append_right _ hy)))] at h3
    have hcount : ∀ nx, prefixCount env regex enabled (x :: xs) nx = .ok 0 := by
      intro nx
      unfold prefixCount
      rw [if_pos (by simpa using hxt)]
    rw [hcount] at h3
    simp only [] at h3
    cases hr2 : prefixLoop env regex enabled (decide ((0 : Nat) ≠ 0)) ((groupBy (fun t : RefTok => stripTagPrefix t.1) b).map (·.2)) with
    | error er => rw [hr2] at h3; cases h3
    | ok o =>
      rw [hr2] at h3
      have h3 := Except.ok.inj h3
      subst h1
      rw [← h3, prefixGroup_false, ← List.append_assoc]
      exact part_append_mid _ _ _ _ _ h2.symm (by simp)

/-- **C70.** Untagged tokens at the end stay untagged. -/
theorem C70_end {env : RefEnv} {regex : Dict Str} {enabled : List Str} {a g : List RefTok}
    {out : List (Option Str)} (h : prefixExtended env regex enabled (a ++ g) = .ok out)
    (hp : ∀ y ∈ a ++ g, Spec.ProperTag y.1)
    (hg : Spec.MaximalRun none (a.map (·.1)) (g.map (·.1)) []) : Spec.part out a.length g.length = List.replicate g.length none := by
  have hg' : Spec.MaximalRun none (a.map (·.1)) (g.map (·.1)) (([] : List RefTok).map (·.1)) := hg
  have hgs := refGroups_groupBy _ hp
  unfold prefixExtended at h
  have hga := groupBy_maximal_toks hg'
  rw [List.append_nil] at hga
  rw [hga] at h hgs
  obtain ⟨o1, o2, c, h1, h2, h3, h4, h5⟩ := prefixLoop_append env regex enabled _ _ hgs false out h
  rw [groupBy_flatten] at h2
  have hun : ∀ y ∈ g, y.1 = none := fun y hy => tagValue_none_iff.1 (hg.value y.1 (List.mem_map_of_mem hy))
  have hgn : g.map (·.1) = List.replicate g.length none := by
    rw [List.eq_replicate_iff]
    refine ⟨by simp, ?_⟩
    intro t ht
    obtain ⟨y, hy, rfl⟩ := List.mem_map.1 ht
    exact hun y hy
  have hgne : g ≠ [] := fun e => hg.nonempty (by rw [e]; rfl)
  change prefixLoop env regex enabled c [g] = .ok o2 at h3
  rw [prefixLoop_cons _ _ _ _ _ _ (fun y hy => hp y (List.mem_append_right _ hy))] at h3
  have hcount : prefixCount env regex enabled g (firstRefTag ([] : List (List RefTok)).head?) = .ok 0 := by
    unfold prefixCount
    split
    · rfl
    · rfl
  rw [hcount] at h3
  simp only [] at h3
  have h3 := Except.ok.inj h3
  have p1 : prefixGroup c g (firstRefTag ([] : List (List RefTok)).head?) 0 = List.replicate g.length none := by
    unfold prefixGroup
    simp only []
    rw [if_pos trivial]
    split
    · rw [insideHead_none, hgn]
      intro t ht
      rw [hgn] at ht
      exact (List.mem_replicate.1 ht).2
    · exact hgn
  rw [p1] at h3
  subst h1
  rw [← h3]
  have := part_append_mid o1 (List.replicate g.length (none : Option Str)) [] a.length g.length h2.symm (by simp)
  rwa [List.append_assoc] at this

/-- **C70.** There is one tag for each token; a tagged token keeps its value. -/
theorem C70_values {env : RefEnv} {regex : Dict Str} {enabled : List Str} {toks : List RefTok} {out : List (Option Str)}
    (h : prefixExtended env regex enabled toks = .ok out) (hp : ∀ y ∈ toks, Spec.ProperTag y.1) :
    out.length = toks.length ∧
    ∀ (i : Nat) x, toks[i]? = some x → x.1 ≠ none → ∃ t, out[i]? = some t ∧ Spec.tagValue t = Spec.tagValue x.1 := by
  have hr := prefixExtended_rel hp h
  refine ⟨hr.1, ?_⟩
  intro i x hx hn
  obtain ⟨t, h1, h2⟩ := hr.get hx
  refine ⟨t, h1, ?_⟩
  rcases h2 with rfl | rfl | ⟨h3, _⟩
  · rfl
  · exact (insideTag_spec (hp x (List.mem_of_getElem? hx))).1
  · exact absurd h3 hn

theorem prefixLoop_error {env : RefEnv} {regex : Dict Str} {enabled : List Str} (gs : List (List RefTok)) (changed : Bool) {e : Err} (hg : RefGroups gs)
    (h : prefixLoop env regex enabled changed gs = .error e) : e = .keyError := by
  induction gs generalizing changed with
  | nil => cases h
  | cons g gs ih =>
    obtain ⟨⟨x, xs, v, he, hv⟩, hgs⟩ := hg.cons
    rw [prefixLoop_cons _ _ _ _ _ _ (fun y hy => (hv y hy).2)] at h
    cases hn : prefixCount env regex enabled g (firstRefTag gs.head?) with
    | error er =>
      rw [hn] at h
      cases h
      unfold prefixCount at hn
      split at hn
      · cases hn
      · split at hn
        · cases hn
        · split at hn
          · cases hn
          · split at hn
            · cases hn; rfl
            · split at hn <;> cases hn
    | ok n =>
      rw [hn] at h
      simp only [] at h
      cases hr : prefixLoop env regex enabled (decide (n ≠ 0)) gs with
      | error er => rw [hr] at h; cases h; exact ih _ hgs hr
      | ok o => rw [hr] at h; cases h

/-- **C70.** A value to be extended for which there is no pattern: processing fails as soon as there are untagged tokens before it. -/
theorem C70_no_pattern {env : RefEnv} {regex : Dict Str} {enabled : List Str} {a g r b : List RefTok} {v : Str}
    (hp : ∀ y ∈ a ++ g ++ r ++ b, Spec.ProperTag y.1)
    (hg : Spec.MaximalRun none (a.map (·.1)) (g.map (·.1)) ((r ++ b).map (·.1)))
    (hr : Spec.MaximalRun (some v) ((a ++ g).map (·.1)) (r.map (·.1)) (b.map (·.1)))
    (hv : v ∈ enabled) (hn : regex.get? v = none) : prefixExtended env regex enabled (a ++ g ++ r ++ b) = .error .keyError := by
  have hgs := refGroups_groupBy _ hp
  cases h : prefixExtended env regex enabled (a ++ g ++ r ++ b) with
  | error e => rw [prefixLoop_error _ _ hgs h]
  | ok out =>
    exfalso
    unfold prefixExtended at h
    have hg' : Spec.MaximalRun none (a.map (·.1)) (g.map (·.1)) (([] : List RefTok).map (·.1)) :=
      ⟨hg.nonempty, hg.value, hg.left, by simp⟩
    have hga := groupBy_maximal_toks hg'
    rw [List.append_nil] at hga
    rw [groupBy_maximal_toks hr, hga] at h hgs
    have hnil : (groupBy (fun t : RefTok => stripTagPrefix t.1) ([] : List RefTok)).map (·.2) = [] := rfl
    rw [hnil, List.append_assoc] at h hgs
    obtain ⟨o1, o2, c, _, _, h3, _⟩ := prefixLoop_append env regex enabled _ _ hgs false out h
    have hun : ∀ y ∈ g, y.1 = none := fun y hy => tagValue_none_iff.1 (hg.value y.1 (List.mem_map_of_mem hy))
    change prefixLoop env regex enabled c (g :: r :: (groupBy (fun t : RefTok => stripTagPrefix t.1) b).map (·.2)) = .ok o2 at h3
    rw [prefixLoop_cons _ _ _ _ _ _ (fun y hy => by rw [hun y hy]; exact properTag_none)] at h3
    have hgne : g ≠ [] := fun e => hg.nonempty (by rw [e]; rfl)
    cases r with
    | nil => exact hr.nonempty rfl
    | cons x xs =>
      have hxv : Spec.tagValue x.1 = some v := hr.value x.1 (by simp)
      rw [prefixCount_error hgne hun (next := firstRefTag ((x :: xs) :: (groupBy (fun t : RefTok => stripTagPrefix t.1) b).map (·.2)).head?) hxv hv hn] at h3
      cases h3

/-! ### C72 Merging sub tags -/

theorem refMerge_get (l : List Str) (m : Dict Bool) (v : Str) :
    ((l.map (fun k => (k, true))).foldl (fun d p => Dict.set d p.1 p.2) m).get? v = if v ∈ l then some true else m.get? v := by
  induction l generalizing m with
  | nil => simp
  | cons k l ih =>
    rw [List.map_cons, List.foldl_cons, ih]
    by_cases hv : v ∈ l
    · rw [if_pos hv, if_pos (List.mem_cons_of_mem _ hv)]
    · rw [if_neg hv]
      by_cases hk : v = k
      · subst hk; rw [if_pos (by simp), Dict.get?_set_self]
      · rw [if_neg (by simp [hk, hv]), Dict.get?_set_ne _ _ hk]

theorem refMerge_enabled (cfg : RefConfig) (v : Str) :
    (Spec.enabled (refExtendCfg cfg).mergeMap (refExtendCfg cfg).defaultMerge v ↔ v ∈ cfg.mergeTags) ∧
    ¬ Spec.enabled (refExtendCfg cfg).extendMap (refExtendCfg cfg).defaultExtend v := by
  refine ⟨?_, by simp [Spec.enabled, refExtendCfg]⟩
  show (Option.getD (Dict.get? (Dict.ofPairs (cfg.mergeTags.map (fun k => (k, true)))) v) false = true) ↔ _
  unfold Dict.ofPairs
  rw [refMerge_get]
  split <;> simp_all [Dict.get?]

/-- **C72.** Merging gives one tag for each token, and tagged tokens keep their values. Untagged tokens between two tagged
ones are tagged if and only if both have the same value, which is to be merged. -/
theorem C72_between (cfg : RefConfig) (before after : List (Option Str)) (l r : Option Str) (u v : Str) (m : Nat)
    (hp : ∀ t ∈ before ++ l :: List.replicate m none ++ r :: after, Spec.ProperTag t)
    (hl : Spec.tagValue l = some u) (hr : Spec.tagValue r = some v) (k : Nat) (hk : k < m) :
    ∃ t, (extendedLineTags (refExtendCfg cfg) (before ++ l :: List.replicate m none ++ r :: after))[before.length + 1 + k]? = some t ∧
      (u = v ∧ u ∈ cfg.mergeTags → Spec.tagValue t = some u) ∧
      (¬ (u = v ∧ u ∈ cfg.mergeTags) → t = none) := by
  have := C22_between (refExtendCfg cfg) before after l r u v m hp hl hr k hk
  rwa [(refMerge_enabled cfg u).1] at this

/-- **C72.** Untagged tokens at the beginning and the end of a reference stay untagged. -/
theorem C72_edges (cfg : RefConfig) (entity rest : List (Option Str)) (v : Str) (m : Nat) (hne : entity ≠ [])
    (he : ∀ t ∈ entity, Spec.tagValue t = some v) (k : Nat) (hk : k < m) :
    ((∀ t ∈ List.replicate m none ++ entity ++ rest, Spec.ProperTag t) → (∀ t, rest.head? = some t → Spec.tagValue t ≠ some v) →
      (extendedLineTags (refExtendCfg cfg) (List.replicate m none ++ entity ++ rest))[k]? = some none) ∧
    ((∀ t ∈ rest ++ entity ++ List.replicate m none, Spec.ProperTag t) → (∀ t, rest.getLast? = some t → Spec.tagValue t ≠ some v) →
      (extendedLineTags (refExtendCfg cfg) (rest ++ entity ++ List.replicate m none))[rest.length + entity.length + k]? = some none) := by
  have hx := (refMerge_enabled cfg v).2
  constructor
  · intro hp ha
    obtain ⟨t, h1, _, h2⟩ := C22_before (refExtendCfg cfg) entity rest v m hp hne he ha k hk
    rw [h1, h2 (fun h => hx h.1)]
  · intro hp hb
    obtain ⟨t, h1, _, h2⟩ := C22_behind (refExtendCfg cfg) rest entity v m hp hne he hb k hk
    rw [h1, h2 (fun h => hx h.1)]

/-- **C72.** Where a value to be merged continues, or one of two neighbouring tokens was untagged, there is an inside tag;
otherwise the tag is as before. -/
theorem C72_prefixes (cfg : RefConfig) (tags : List (Option Str)) (hp : ∀ t ∈ tags, Spec.Prefixed t) :
    ∀ (i : Nat) x y, (tags.zip (extendedLineTags (refExtendCfg cfg) tags))[i]? = some x →
      (tags.zip (extendedLineTags (refExtendCfg cfg) tags))[i + 1]? = some y →
      Spec.FollowsOn (fun v => v ∈ cfg.mergeTags) x y := by
  have h := (C22_prefixes (refExtendCfg cfg) tags hp).2
  intro i x y hx hy
  have := h i x y hx hy
  have e : (fun v => Spec.enabled (refExtendCfg cfg).mergeMap (refExtendCfg cfg).defaultMerge v) = (fun v => v ∈ cfg.mergeTags) :=
    funext fun v => propext (refMerge_enabled cfg v).1
  rwa [e] at this

/-! ### Examples -/

/-- The default configuration (auto_annotate_reference.py:78-131), with or without the text before identifiers; patterns are named
by what they look for. -/
def exRefConfig (withPrefix : Bool) : RefConfig where
  subTagMap := [(c!"reference-fpage", c!"reference-page"), (c!"reference-lpage", c!"reference-page")]
  mergeTags := [c!"reference-author", c!"reference-editor", c!"reference-issue", c!"reference-page"]
  prefixTags := if withPrefix then [c!"reference-issn", c!"reference-isbn", c!"reference-doi", c!"reference-pii", c!"reference-pmid",
    c!"reference-pmcid", c!"reference-arxiv"] else []
  suffixTags := [c!"reference-author", c!"reference-editor"]
  prefixRegex := [(c!"reference-issn", c!"ID:"), (c!"reference-isbn", c!"ID:"), (c!"reference-doi", c!"DOI:"), (c!"reference-pii", c!"PII:"),
    (c!"reference-pmid", c!"ID:"), (c!"reference-pmcid", c!"ID:"), (c!"reference-arxiv", c!"ID:")]
  etal := c!"reference-etal"
  etalMerge := [c!"reference-author", c!"reference-editor"]

/-- Finds a fixed text at the end of a text. -/
def exRefEnv : RefEnv := ⟨asciiClass, fun p s => if endsWith p s then some (s.length - p.length) else none⟩

/-- The default configuration meets the hypotheses. -/
example : ∀ b, (∀ v ∈ (exRefConfig b).prefixTags, (exRefConfig b).prefixRegex.get? v ≠ none) ∧
    (∀ w ∈ (exRefConfig b).etalMerge, Spec.mappedName (exRefConfig b).subTagMap w = w) := by decide +kernel

theorem exRefMap_get {b : Bool} {k v : Str} (h : (exRefConfig b).subTagMap.get? k = some v) : v = c!"reference-page" := by
  simp only [exRefConfig, Dict.get?] at h
  split at h
  · exact (Option.some.inj h).symm
  · split at h
    · exact (Option.some.inj h).symm
    · cases h

example (b : Bool) : Spec.ProperMap (exRefConfig b).subTagMap := by
  intro k v h
  rw [exRefMap_get h]
  decide +kernel

example (b : Bool) (x : Str) : Spec.mappedName (exRefConfig b).subTagMap (Spec.mappedName (exRefConfig b).subTagMap x) =
    Spec.mappedName (exRefConfig b).subTagMap x := by
  unfold Spec.mappedName
  cases h : (exRefConfig b).subTagMap.get? x with
  | none => rw [Option.getD_none, h]; rfl
  | some v => rw [Option.getD_some, exRefMap_get h]; cases b <;> decide +kernel

def exRefDocCfg : DocCfg := ⟨asciiClass, [], fun _ _ => true, [c!"text"], true⟩

/-- Loads a text, sets main tags and sub tags, and processes the references; the result is the sub tags of all tokens. -/
def exReference (cfg : RefConfig) (text : Str) (tags sub : List (Nat × Str)) : Except Err (List (Option Str)) :=
  match loadDoc exRefDocCfg (.mk c!"tei" [] none [.mk c!"text" [] (some text) [] none] none) with
  | .error e => .error e
  | .ok d =>
    let d1 := tags.foldl (fun d p => d.setTag p.1 (some p.2)) d
    let d2 := sub.foldl (fun d p => d.setSubTag p.1 (some p.2)) d1
    (referenceAnnotate exRefEnv cfg d2).map (fun d' => d'.allTokens.map d'.getSubTag)

/-- An author with a dot, "et al", and page numbers. -/
example : ∃ r, exReference (exRefConfig true) c!"Doe J. et al 1-9" []
      [(0, c!"b-reference-author"), (2, c!"b-reference-author"), (5, c!"b-reference-etal"), (7, c!"i-reference-etal"),
        (9, c!"b-reference-fpage"), (11, c!"b-reference-lpage")] = .ok r ∧
    r = [some c!"b-reference-author", none, some c!"i-reference-author", some c!"i-reference-author", none, some c!"i-reference-author", none,
      some c!"i-reference-author", none, some c!"b-reference-page", some c!"i-reference-page", some c!"i-reference-page"] :=
  exists_of_okAnd (by decide +kernel)

/-- The text before an identifier. -/
example : ∃ r, exReference (exRefConfig true) c!"Doe DOI:10" [] [(0, c!"b-reference-author"), (4, c!"b-reference-doi")] = .ok r ∧
    r = [some c!"b-reference-author", none, some c!"b-reference-doi", some c!"i-reference-doi", some c!"i-reference-doi"] :=
  exists_of_okAnd (by decide +kernel)

/-- Two references: "et al" at the beginning of the second is not merged with the author of the first. -/
example : ∃ r, exReference (exRefConfig false) c!"Doe etal" [(0, c!"b-reference"), (2, c!"b-reference")]
      [(0, c!"b-reference-author"), (2, c!"b-reference-etal")] = .ok r ∧
    r = [some c!"b-reference-author", none, some c!"b-reference-etal"] :=
  exists_of_okAnd (by decide +kernel)

/-- **C33**, disagreement: names are mapped several times, so a name mapped to another name which itself is mapped ends with neither. -/
theorem C33_mapped_repeatedly :
    ∃ r, exReference { exRefConfig false with subTagMap := [(c!"a", c!"b"), (c!"b", c!"c"), (c!"c", c!"d"), (c!"d", c!"e"), (c!"e", c!"f")] }
      c!"x" [] [(0, c!"b-a")] = .ok r ∧ r = [some c!"b-e"] :=
  exists_of_okAnd (by decide +kernel)

/-- **C33**, disagreement: two values swapped by the map are not swapped. -/
theorem C33_swap_lost :
    ∃ r, exReference { exRefConfig false with subTagMap := [(c!"a", c!"b"), (c!"b", c!"a")] } c!"x y" [] [(0, c!"b-a"), (2, c!"b-b")] = .ok r ∧
      r = [some c!"b-a", none, some c!"b-b"] :=
  exists_of_okAnd (by decide +kernel)

/-- **C70**, disagreement: without pattern for an enabled value there is an error. -/
theorem C70_missing_pattern_fails :
    exReference { exRefConfig false with prefixTags := [c!"reference-other"] } c!"x y" [] [(2, c!"b-reference-other")] = .error .keyError := by
  decide +kernel

/-- The hypotheses of the theorems for tag lists are met. -/
example : etalMapped c!"etal" [c!"author"] [none, some c!"b-author", some c!"i-author", none, some c!"b-etal", none, some c!"b-etal", some c!"i-etal", some c!"b-year",
      some c!"b-etal"] =
    [none, some c!"b-author", some c!"i-author", none, some c!"b-author", none, some c!"b-author", some c!"i-author", some c!"b-year", some c!"b-etal"] := by
  decide +kernel

example : extendedLineTags (refExtendCfg (exRefConfig false)) [none, some c!"b-reference-author", none, some c!"b-reference-author", some c!"b-reference-doi",
      some c!"b-reference-doi", none, some c!"b-reference-doi", none] =
    [none, some c!"b-reference-author", some c!"i-reference-author", some c!"i-reference-author", some c!"b-reference-doi",
      some c!"b-reference-doi", none, some c!"b-reference-doi", none] := by
  decide +kernel

example : suffixExtended [c!"author"] [(some c!"b-author", c!"J", some []), (none, c!".", some c!" "), (none, c!".", none), (some c!"b-year", c!"1", none), (none, c!".", none)] =
    [some c!"b-author", some c!"i-author", none, some c!"b-year", none] := by decide +kernel

example : prefixExtended exRefEnv [(c!"doi", c!"DOI:")] [c!"doi"]
      [(none, c!"x", some c!" "), (none, c!"DOI", some []), (none, c!":", some []), (some c!"b-doi", c!"10", none)] =
    .ok [none, some c!"b-doi", some c!"i-doi", some c!"i-doi"] := by decide +kernel

end Verif
