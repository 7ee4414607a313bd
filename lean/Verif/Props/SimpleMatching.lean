/-
Properties C57, C22 and C19-C21: selecting index ranges, extending tags to lines, and the simple matching
annotator.
-/
import Verif.Lemmas.Clusters
import Verif.Lemmas.ExtendTags
import Verif.Lemmas.SimpleMatching
import Verif.Props.MatchingUtils
import Verif.Props.PostAnnotators
import Verif.Lemmas.Ok

namespace Verif

/-! ### C57 Selecting index ranges -/

/-- Merging index ranges gives the smallest range covering all of them. -/
theorem C57_merge (rs : List (Nat × Nat)) (hne : rs ≠ []) :
    ∃ s e, mergeIndexRanges rs = .ok (s, e) ∧ (∀ r ∈ rs, s ≤ r.1 ∧ r.2 ≤ e) ∧
      (∃ r ∈ rs, r.1 = s) ∧ (∃ r ∈ rs, r.2 = e) := by
  cases rs with
  | nil => exact absurd rfl hne
  | cons r rs =>
    refine ⟨_, _, rfl, ?_, ?_, ?_⟩
    · intro x hx
      have h1 := foldl_min_le Prod.fst rs r.1
      have h2 := le_foldl_max Prod.snd rs r.2
      rcases List.mem_cons.1 hx with rfl | hx
      · exact ⟨h1.1, h2.1⟩
      · exact ⟨h1.2.1 x hx, h2.2.1 x hx⟩
    · rcases (foldl_min_le Prod.fst rs r.1).2.2 with h | ⟨x, hx, h⟩
      · exact ⟨r, by simp, h.symm⟩
      · exact ⟨x, by simp [hx], h.symm⟩
    · rcases (le_foldl_max Prod.snd rs r.2).2.2 with h | ⟨x, hx, h⟩
      · exact ⟨r, by simp, h.symm⟩
      · exact ⟨x, by simp [hx], h.symm⟩

/-- Without any index range nothing is selected. -/
theorem C57_select_none : selectIndexRanges [] = .ok ([], []) := rfl

/-- The index ranges are divided, in order, into groups: each is made by joining close groups, no two
neighbouring groups are close. The first of the longest groups is selected, the ranges of the others are
left over, in order. -/
theorem C57_select (rs : List (Nat × Nat)) (hne : rs ≠ []) (hv : ∀ r ∈ rs, r.1 ≤ r.2) :
    ∃ before selected after unselected, selectIndexRanges rs = .ok (selected, unselected) ∧
      (before ++ selected :: after).flatten.Perm rs ∧
      Spec.InOrder (before ++ selected :: after).flatten ∧
      (∀ c ∈ before ++ selected :: after, c ≠ [] ∧ Spec.Linked c) ∧
      Spec.FarApart (before ++ selected :: after) ∧
      (∀ c ∈ before, Spec.groupLength c < Spec.groupLength selected) ∧
      (∀ c ∈ after, Spec.groupLength c ≤ Spec.groupLength selected) ∧
      unselected = (before ++ after).flatten := by
  unfold selectIndexRanges
  by_cases h1 : rs.length ≤ 1
  · rw [if_pos h1]
    match rs, hne, h1 with
    | [r], _, _ =>
      refine ⟨[], [r], [], [], rfl, ?_⟩
      refine ⟨by simp, by simp [Spec.InOrder], ?_, trivial, by simp, by simp, rfl⟩
      intro c hc
      simp only [List.nil_append, List.mem_singleton] at hc
      subst hc
      exact ⟨by simp, Spec.Linked.single r⟩
    | _ :: _ :: _, _, h => simp at h
  · rw [if_neg h1]
    have hsingle : (sortBy rangeLe rs).map (fun r => mkCluster [r]) = (sortBy rangeLe rs).map (fun r => [r]) := rfl
    have hfl : ((sortBy rangeLe rs).map (fun r => [r])).flatten = sortBy rangeLe rs := by
      generalize sortBy rangeLe rs = l
      induction l with
      | nil => rfl
      | cons a l ih => simpa using ih
    have hperm := sortBy_perm rangeLe rs
    obtain ⟨cs, h2, h3, h4, h5, h6⟩ := mergeRelated_spec rs.length ((sortBy rangeLe rs).map (fun r => [r]))
      (by rw [List.length_map, hperm.length_eq]; exact Nat.le_refl _)
      (by rw [ne_eq, List.map_eq_nil_iff, sortBy_eq_nil]; exact hne)
      (by rw [hfl]; exact sortBy_inOrder rs)
      (by rw [hfl]; intro r hr; exact hv r (hperm.mem_iff.1 hr))
      (by
        intro c hc
        obtain ⟨r, _, rfl⟩ := List.mem_map.1 hc
        exact ⟨by simp, Spec.Linked.single r⟩)
    rw [hsingle, h2]
    rw [hfl] at h3
    simp only []
    cases hs : sortBy (fun c c' => decide (Cluster.len c' ≤ Cluster.len c)) cs with
    | nil => exact absurd ((sortBy_eq_nil _ _).1 hs) h4
    | cons c rest =>
      obtain ⟨pre, post, rfl, hp, hlt, hle⟩ := sortBy_longest cs c rest hs
      refine ⟨pre, c, post, _, rfl, ?_, ?_, h5, h6, hlt, hle, ?_⟩
      · rw [h3]; exact hperm
      · rw [h3]; exact sortBy_inOrder rs
      · have ho : Spec.InOrder (pre ++ post).flatten := by
          have : Spec.InOrder (pre ++ c :: post).flatten := by rw [h3]; exact sortBy_inOrder rs
          refine List.Pairwise.sublist ?_ this
          rw [List.flatten_append, List.flatten_append, List.flatten_cons]
          exact List.Sublist.append_left (List.sublist_append_right _ _) _
        rw [← sortBy_of_inOrder _ ho]
        have hpf : rest.flatten.Perm (pre ++ post).flatten := hp.flatten
        have a1 := sortBy_pairwise rangeLe rangeLe_total rangeLe_trans rest.flatten
        have a2 := sortBy_pairwise rangeLe rangeLe_total rangeLe_trans (pre ++ post).flatten
        exact List.Perm.eq_of_pairwise (fun a b _ _ h1 h2 => by
            rw [rangeLe_iff] at h1 h2; apply Prod.ext <;> omega) a1 a2
          ((sortBy_perm _ _).trans (hpf.trans (sortBy_perm _ _).symm))

/-- Where one range contains a later one, the length of a group is not the length of the text it covers:
a group covering 100 characters loses against one covering 30, and a range within another one is not
regarded as close to it. -/
theorem C57_longest_wrong :
    selectIndexRanges [(0, 100), (10, 20), (200, 230)] = .ok ([(200, 230)], [(0, 100), (10, 20)]) ∧
    selectIndexRanges [(0, 100), (10, 20), (55, 60)] = .ok ([(0, 100), (10, 20)], [(55, 60)]) := by decide +kernel

example : selectIndexRanges [(210, 220), (0, 5), (100, 104), (20, 25), (230, 240)] =
    .ok ([(210, 220), (230, 240)], [(0, 5), (20, 25), (100, 104)]) ∧
    mergeIndexRanges [(210, 220), (230, 240)] = .ok (210, 240) := by decide +kernel

/-! ### C22 Extending tags to the line -/

theorem C22_aux_values (cfg : ExtendCfg) (tags : List (Option Str)) (hp : ∀ t ∈ tags, Spec.ProperTag t) :
    (extendedLineTags cfg tags).map Spec.tagValue = valLoop cfg none (runs (tags.map Spec.tagValue)) := by
  have : stripTagPrefix = Spec.tagValue := funext stripTagPrefix_eq_tagValue
  rw [← this]
  exact extended_values cfg tags hp

/-- There is one tag for each token, and tokens which are tagged keep the value of their tag. -/
theorem C22_keeps_values (cfg : ExtendCfg) (tags : List (Option Str)) (hp : ∀ t ∈ tags, Spec.ProperTag t) :
    (extendedLineTags cfg tags).length = tags.length ∧
    ∀ (i : Nat) t, tags[i]? = some t → t ≠ none →
      ∃ t', (extendedLineTags cfg tags)[i]? = some t' ∧ Spec.tagValue t' = Spec.tagValue t := by
  have h := C22_aux_values cfg tags hp
  refine ⟨?_, ?_⟩
  · have := congrArg List.length h
    rw [List.length_map, valLoop_length, runs_length, List.length_map] at this
    exact this
  · intro i t ht hn
    have hv : ∃ v, Spec.tagValue t = some v := by
      cases hs : Spec.tagValue t with
      | none => rw [← stripTagPrefix_eq_tagValue, properTag_value_none] at hs; exact absurd hs hn
      | some v => exact ⟨v, rfl⟩
    obtain ⟨v, hv⟩ := hv
    have := valLoop_keeps cfg (runs (tags.map Spec.tagValue)) none i v (by
      rw [runs_flatten, List.getElem?_map, ht, Option.map_some, hv])
    rw [← h, List.getElem?_map] at this
    cases ho : (extendedLineTags cfg tags)[i]? with
    | none => rw [ho] at this; cases this
    | some t' =>
      rw [ho] at this
      refine ⟨t', rfl, ?_⟩
      rw [hv]
      simpa using this

/-- Every value in the result is the value of a tag which is on the line already. -/
theorem C22_from_line (cfg : ExtendCfg) (tags : List (Option Str)) (hp : ∀ t ∈ tags, Spec.ProperTag t)
    (t' : Option Str) (ht : t' ∈ extendedLineTags cfg tags) (v : Str) (hv : Spec.tagValue t' = some v) :
    ∃ t ∈ tags, Spec.tagValue t = some v := by
  have h : some v ∈ (extendedLineTags cfg tags).map Spec.tagValue := List.mem_map.2 ⟨t', ht, hv⟩
  rw [C22_aux_values cfg tags hp] at h
  rcases valLoop_mem cfg _ none v h with ⟨_, e⟩ | ⟨n, hm⟩
  · cases e
  · obtain ⟨kg, hkg, e⟩ := List.mem_map.1 hm
    obtain ⟨hne, hall⟩ := groupBy_uniform _ _ kg hkg
    obtain ⟨x, hx⟩ := List.exists_mem_of_ne_nil _ hne
    obtain ⟨h1, h2⟩ := hall x hx
    obtain ⟨t, ht, e2⟩ := List.mem_map.1 h2
    refine ⟨t, ht, ?_⟩
    have e1 := congrArg Prod.fst e
    simp only [id] at h1 e1
    rw [e2, h1, e1]

/-- Untagged tokens between two tagged ones are tagged if and only if both have the same value and values
are to be merged, and then with this value. -/
theorem C22_between (cfg : ExtendCfg) (before after : List (Option Str)) (l r : Option Str) (u v : Str) (m : Nat)
    (hp : ∀ t ∈ before ++ l :: List.replicate m none ++ r :: after, Spec.ProperTag t)
    (hl : Spec.tagValue l = some u) (hr : Spec.tagValue r = some v) (k : Nat) (hk : k < m) :
    ∃ t, (extendedLineTags cfg (before ++ l :: List.replicate m none ++ r :: after))[before.length + 1 + k]? = some t ∧
      (u = v ∧ Spec.enabled cfg.mergeMap cfg.defaultMerge u → Spec.tagValue t = some u) ∧
      (¬ (u = v ∧ Spec.enabled cfg.mergeMap cfg.defaultMerge u) → t = none) := by
  have h := C22_aux_values cfg _ hp
  have hlen := (C22_keeps_values cfg _ hp).1
  generalize hout : extendedLineTags cfg (before ++ l :: List.replicate m none ++ r :: after) = out at h hlen
  have hvals : (before ++ l :: List.replicate m none ++ r :: after).map Spec.tagValue =
      ((before.map Spec.tagValue ++ [some u]) ++ List.replicate m none) ++ (some v :: after.map Spec.tagValue) := by
    simp [hl, hr, show Spec.tagValue none = none from rfl]
  rw [hvals, runs_append _ _ (by
      intro x y hx hy
      rw [List.getLast?_append, List.getLast?_replicate, if_neg (by omega)] at hx
      cases hx; cases hy; simp),
    runs_append _ _ (by
      intro x y hx hy
      rw [List.getLast?_append] at hx
      rw [List.head?_replicate, if_neg (by omega)] at hy
      cases hx; cases hy; simp),
    runs_replicate _ _ (by omega), List.append_assoc] at h
  obtain ⟨x, hx, hxl⟩ := valLoop_append cfg (runs (before.map Spec.tagValue ++ [some u]))
    ([(none, m)] ++ runs (some v :: after.map Spec.tagValue)) none
  rw [runs_length, List.length_append, List.length_map, List.length_singleton] at hxl
  obtain ⟨nl, hnl⟩ := runs_getLast (before.map Spec.tagValue ++ [some u]) (some u) (by simp)
  obtain ⟨nr, hnr⟩ := runs_head (some v :: after.map Spec.tagValue) (some v) rfl
  have hne : runs (before.map Spec.tagValue ++ [some u]) ≠ [] := by
    intro e; rw [e] at hnl; cases hnl
  rw [hx, if_neg hne, hnl, List.singleton_append, valLoop, if_pos rfl, hnr] at h
  have hget : (out.map Spec.tagValue)[before.length + 1 + k]? =
      some (fillV cfg (some (some u, nl)) (some (some v, nr)) m) := by
    rw [h, List.getElem?_append_right (by omega), List.getElem?_append_left (by rw [List.length_replicate]; omega),
      List.getElem?_replicate, if_pos (by omega)]
  rw [List.getElem?_map] at hget
  cases ho : out[before.length + 1 + k]? with
  | none => rw [ho] at hget; cases hget
  | some t =>
    rw [ho, Option.map_some] at hget
    refine ⟨t, rfl, ?_, ?_⟩
    · rintro ⟨rfl, he⟩
      have : fillV cfg (some (some u, nl)) (some (some u, nr)) m = some u := by
        exact if_pos ⟨rfl, he⟩
      rw [this] at hget
      exact Option.some.inj hget
    · intro hno
      have : fillV cfg (some (some u, nl)) (some (some v, nr)) m = none := by
        exact if_neg (fun ⟨e, he⟩ => hno ⟨Option.some.inj e, he⟩)
      rw [this] at hget
      rw [← stripTagPrefix_eq_tagValue] at hget
      exact properTag_value_none.1 (Option.some.inj hget)

/-- Untagged tokens at the end of a line are tagged if and only if the last value is to be extended and
the last tokens with this value are more than the untagged ones, and then with this value. -/
theorem C22_behind (cfg : ExtendCfg) (before entity : List (Option Str)) (v : Str) (m : Nat)
    (hp : ∀ t ∈ before ++ entity ++ List.replicate m none, Spec.ProperTag t)
    (hne : entity ≠ []) (he : ∀ t ∈ entity, Spec.tagValue t = some v)
    (hb : ∀ t, before.getLast? = some t → Spec.tagValue t ≠ some v) (k : Nat) (hk : k < m) :
    ∃ t, (extendedLineTags cfg (before ++ entity ++ List.replicate m none))[before.length + entity.length + k]? = some t ∧
      (Spec.enabled cfg.extendMap cfg.defaultExtend v ∧ m < entity.length → Spec.tagValue t = some v) ∧
      (¬ (Spec.enabled cfg.extendMap cfg.defaultExtend v ∧ m < entity.length) → t = none) := by
  have h := C22_aux_values cfg _ hp
  generalize hout : extendedLineTags cfg (before ++ entity ++ List.replicate m none) = out at h
  have hpos : 0 < entity.length := List.length_pos_iff.2 hne
  have hent : entity.map Spec.tagValue = List.replicate entity.length (some v) := by
    rw [List.eq_replicate_iff]
    refine ⟨by simp, ?_⟩
    intro x hx
    obtain ⟨t, ht, rfl⟩ := List.mem_map.1 hx
    exact he t ht
  have hvals : (before ++ entity ++ List.replicate m none).map Spec.tagValue =
      (before.map Spec.tagValue ++ List.replicate entity.length (some v)) ++ List.replicate m none := by
    rw [List.map_append, List.map_append, hent, List.map_replicate]; rfl
  rw [hvals, runs_append _ _ (by
      intro x y hx hy
      rw [List.getLast?_append, List.getLast?_replicate, if_neg (by omega)] at hx
      rw [List.head?_replicate, if_neg (by omega)] at hy
      cases hx; cases hy; simp),
    runs_append (before.map Spec.tagValue) _ (by
      intro x y hx hy
      rw [List.getLast?_map] at hx
      rw [List.head?_replicate, if_neg (by omega)] at hy
      cases hy
      cases hlast : before.getLast? with
      | none => rw [hlast] at hx; cases hx
      | some t =>
        rw [hlast] at hx
        cases hx
        exact hb t hlast),
    runs_replicate _ _ hpos, runs_replicate _ _ (by omega)] at h
  obtain ⟨x, hx, hxl⟩ := valLoop_append cfg (runs (before.map Spec.tagValue) ++ [(some v, entity.length)]) [(none, m)] none
  rw [List.map_append, List.sum_append, runs_length, List.length_map] at hxl
  simp only [List.map_cons, List.map_nil, List.sum_cons, List.sum_nil, Nat.add_zero] at hxl
  rw [hx, if_neg (by simp), List.getLast?_concat, valLoop, if_pos rfl] at h
  have hget : (out.map Spec.tagValue)[before.length + entity.length + k]? =
      some (fillV cfg (some (some v, entity.length)) none m) := by
    rw [h, List.getElem?_append_right (by omega), List.getElem?_append_left (by rw [List.length_replicate]; omega),
      List.getElem?_replicate, if_pos (by omega)]
    rfl
  rw [List.getElem?_map] at hget
  cases ho : out[before.length + entity.length + k]? with
  | none => rw [ho] at hget; cases hget
  | some t =>
    rw [ho, Option.map_some] at hget
    refine ⟨t, rfl, ?_, ?_⟩
    · intro hc
      have : fillV cfg (some (some v, entity.length)) none m = some v := by
        exact if_pos hc
      rw [this] at hget
      exact Option.some.inj hget
    · intro hno
      have : fillV cfg (some (some v, entity.length)) none m = none := by
        exact if_neg hno
      rw [this, ← stripTagPrefix_eq_tagValue] at hget
      exact properTag_value_none.1 (Option.some.inj hget)

/-- Untagged tokens at the start of a line are tagged if and only if the first value is to be extended and
the first tokens with this value are more than the untagged ones, and then with this value. -/
theorem C22_before (cfg : ExtendCfg) (entity after : List (Option Str)) (v : Str) (m : Nat)
    (hp : ∀ t ∈ List.replicate m none ++ entity ++ after, Spec.ProperTag t)
    (hne : entity ≠ []) (he : ∀ t ∈ entity, Spec.tagValue t = some v)
    (ha : ∀ t, after.head? = some t → Spec.tagValue t ≠ some v) (k : Nat) (hk : k < m) :
    ∃ t, (extendedLineTags cfg (List.replicate m none ++ entity ++ after))[k]? = some t ∧
      (Spec.enabled cfg.extendMap cfg.defaultExtend v ∧ m < entity.length → Spec.tagValue t = some v) ∧
      (¬ (Spec.enabled cfg.extendMap cfg.defaultExtend v ∧ m < entity.length) → t = none) := by
  have h := C22_aux_values cfg _ hp
  generalize hout : extendedLineTags cfg (List.replicate m none ++ entity ++ after) = out at h
  have hpos : 0 < entity.length := List.length_pos_iff.2 hne
  have hent : entity.map Spec.tagValue = List.replicate entity.length (some v) := by
    rw [List.eq_replicate_iff]
    refine ⟨by simp, ?_⟩
    intro x hx
    obtain ⟨t, ht, rfl⟩ := List.mem_map.1 hx
    exact he t ht
  have hvals : (List.replicate m none ++ entity ++ after).map Spec.tagValue =
      (List.replicate m none ++ List.replicate entity.length (some v)) ++ after.map Spec.tagValue := by
    rw [List.map_append, List.map_append, hent, List.map_replicate]; rfl
  rw [hvals, runs_append _ _ (by
      intro x y hx hy
      rw [List.getLast?_append, List.getLast?_replicate, if_neg (by omega)] at hx
      cases hx
      rw [List.head?_map] at hy
      cases hh : after.head? with
      | none => rw [hh] at hy; cases hy
      | some t =>
        rw [hh] at hy
        cases hy
        exact fun e => ha t hh e.symm),
    runs_append _ _ (by
      intro x y hx hy
      rw [List.getLast?_replicate, if_neg (by omega)] at hx
      rw [List.head?_replicate, if_neg (by omega)] at hy
      cases hx; cases hy; simp),
    runs_replicate _ _ hpos, runs_replicate _ _ (by omega)] at h
  rw [List.append_assoc, List.singleton_append, valLoop, if_pos rfl] at h
  have hget : (out.map Spec.tagValue)[k]? = some (fillV cfg none (some (some v, entity.length)) m) := by
    rw [h, List.getElem?_append_left (by rw [List.length_replicate]; omega), List.getElem?_replicate, if_pos (by omega)]
    rfl
  rw [List.getElem?_map] at hget
  cases ho : out[k]? with
  | none => rw [ho] at hget; cases hget
  | some t =>
    rw [ho, Option.map_some] at hget
    refine ⟨t, rfl, ?_, ?_⟩
    · intro hc
      have : fillV cfg none (some (some v, entity.length)) m = some v := by
        exact if_pos hc
      rw [this] at hget
      exact Option.some.inj hget
    · intro hno
      have : fillV cfg none (some (some v, entity.length)) m = none := by
        exact if_neg hno
      rw [this, ← stripTagPrefix_eq_tagValue] at hget
      exact properTag_value_none.1 (Option.some.inj hget)

/-- A line without any tag is left as it is. -/
theorem C22_untagged_line (cfg : ExtendCfg) (n : Nat) :
    extendedLineTags cfg (List.replicate n none) = List.replicate n none := by
  have hp : ∀ t ∈ List.replicate n (none : Option Str), Spec.ProperTag t := by
    intro t ht
    rw [(List.mem_replicate.1 ht).2]
    exact properTag_none
  have h := C22_aux_values cfg (List.replicate n none) hp
  have hlen := (C22_keeps_values cfg (List.replicate n none) hp).1
  rw [List.length_replicate] at hlen
  rw [List.eq_replicate_iff]
  refine ⟨hlen, ?_⟩
  cases n with
  | zero => intro t ht; rw [List.length_eq_zero_iff.1 hlen] at ht; cases ht
  | succ n =>
    rw [List.map_replicate, show Spec.tagValue none = none from rfl, runs_replicate _ _ (by omega), valLoop, if_pos rfl] at h
    intro t ht
    have : Spec.tagValue t ∈ (extendedLineTags cfg (List.replicate (n + 1) none)).map Spec.tagValue := List.mem_map_of_mem ht
    rw [h, show valLoop cfg (some (none, n + 1)) [] = [] from rfl, List.append_nil] at this
    have := (List.mem_replicate.1 this).2
    rw [← stripTagPrefix_eq_tagValue] at this
    exact properTag_value_none.1 this

/-- Prefixes, where all tags have one. The tag of the first token is the one before, or a begin tag if it
was untagged. Where the value changes the tag is the one before; where it continues, it is an inside tag if
values are to be merged or one of the two tokens was untagged, and otherwise the one before. -/
theorem C22_prefixes (cfg : ExtendCfg) (tags : List (Option Str)) (hp : ∀ t ∈ tags, Spec.Prefixed t) :
    (∀ t t', tags.head? = some t → (extendedLineTags cfg tags).head? = some t' →
      (t ≠ none → t' = t) ∧ (t = none → t' = none ∨ ∃ v, Spec.tagValue t' = some v ∧ t' = some (c!"b-" ++ v))) ∧
    ∀ (i : Nat) x y, (tags.zip (extendedLineTags cfg tags))[i]? = some x →
      (tags.zip (extendedLineTags cfg tags))[i + 1]? = some y →
      Spec.FollowsOn (fun v => Spec.enabled cfg.mergeMap cfg.defaultMerge v) x y := by
  have h := extended_chain cfg tags hp
  refine ⟨?_, ?_⟩
  · intro t t' ht ht'
    cases htags : tags with
    | nil => rw [htags] at ht; cases ht
    | cons a l =>
      cases hout : extendedLineTags cfg tags with
      | nil => rw [hout] at ht'; cases ht'
      | cons b l' =>
        rw [hout] at ht' h
        rw [htags] at ht h
        cases ht; cases ht'
        refine ⟨h.2.1, fun hn => ?_⟩
        cases hv : Spec.tagValue t' with
        | none => left; rw [← stripTagPrefix_eq_tagValue] at hv; exact properTag_value_none.1 hv
        | some v =>
          right
          exact ⟨v, rfl, h.2.2 hn v (by rw [stripTagPrefix_eq_tagValue]; exact hv)⟩
  · intro i x y hx hy
    cases hz : tags.zip (extendedLineTags cfg tags) with
    | nil => rw [hz] at hx; simp at hx
    | cons a l =>
      rw [hz] at hx hy h
      exact adjR_get _ a l h.1 i x y hx hy

/-- Without prefixes, none are added. -/
theorem C22_plain (cfg : ExtendCfg) (tags : List (Option Str)) (hp : ∀ t ∈ tags, Spec.tagValue t = t) :
    ∀ t ∈ extendedLineTags cfg tags, Spec.tagValue t = t := by
  apply extended_forall
  · exact hp
  · rfl
  · intro t ht
    rw [toInsideTag_plain ht]
    exact ht
  · intro t ht n x hx
    rw [toBeginInside_plain ht] at hx
    rw [(List.mem_replicate.1 hx).2]
    exact ht
  · intro g hg x hx
    rw [mergedTags_plain hg] at hx
    exact hg x hx

/-- Two values may be extended, `y` may not. -/
def exExtendCfg : ExtendCfg where
  extendMap := [(c!"y", false)]
  mergeMap := [(c!"y", false)]

example : extendedLineTags exExtendCfg [none, some c!"b-x", some c!"b-x", none, some c!"b-x", some c!"i-y", none, some c!"b-y", some c!"b-y", none] =
      [some c!"b-x", some c!"i-x", some c!"i-x", some c!"i-x", some c!"i-x", some c!"i-y", none, some c!"b-y", some c!"b-y", none] ∧
    extendedLineTags exExtendCfg [some c!"x", some c!"x", none] = [some c!"x", some c!"x", some c!"x"] ∧
    extendedLineTags exExtendCfg [some c!"b-x", none] = [some c!"b-x", none] := by decide +kernel

/-- The extension of a document: text and sub tags stay as they are, and the tags of each line are
extended. -/
theorem C22_document (cfg : MatchCfg) (d : Doc) (hnd : d.nonSpaceTokens.Nodup) (hp : ∀ i, Spec.ProperTag (d.getTag i)) :
    SameBut d (extendDoc cfg d) ∧ (∀ j, (extendDoc cfg d).getSubTag j = d.getSubTag j) ∧
    (∀ j, j ∉ d.nonSpaceTokens → (extendDoc cfg d).getTag j = d.getTag j) ∧
    ∀ l ∈ d.lines, l.nonSpace.map (fun i => (extendDoc cfg d).getTag i) =
      extendedLineTags (extendCfg cfg) (l.nonSpace.map (fun i => d.getTag i)) :=
  extendLines_spec (extendCfg cfg) d.lines d hnd hp

/-- The options used for a tag: those configured for it, by default tags are merged and extended. -/
theorem C22_options (cfg : MatchCfg) (v : Str) :
    (Spec.enabled (extendCfg cfg).extendMap (extendCfg cfg).defaultExtend v ↔ (cfg.tagConfig v).extendToLineEnabled = true) ∧
    (Spec.enabled (extendCfg cfg).mergeMap (extendCfg cfg).defaultMerge v ↔ (cfg.tagConfig v).mergeEnabled = true) := by
  have key : ∀ (f : TagConfig → Bool) (m : Dict TagConfig), f {} = true →
      (Dict.get? (m.map (fun p => (p.1, f p.2))) v).getD true = f (m.getD v {}) := by
    intro f m hf
    unfold Dict.getD
    induction m with
    | nil => exact hf.symm
    | cons p m ih =>
      obtain ⟨k, x⟩ := p
      rw [List.map_cons]
      unfold Dict.get?
      simp only []
      split
      · rfl
      · exact ih
  exact ⟨by
    have := key (·.extendToLineEnabled) cfg.tagConfigMap rfl
    unfold Spec.enabled MatchCfg.tagConfig
    exact this ▸ Iff.rfl,
    by
    have := key (·.mergeEnabled) cfg.tagConfigMap rfl
    unfold Spec.enabled MatchCfg.tagConfig
    exact this ▸ Iff.rfl⟩

/-! ### C19 Matching never overwrites -/

theorem C19_aux (env : MatchEnv) (cfg : MatchCfg) (targets : List Target) (d d' : Doc)
    (h : simpleAnnotate env cfg targets d = .ok d') :
    ∃ d1 left, annotateLoop env cfg targets.length d targets = .ok (some (d1, left)) ∧
      d' = (if cfg.extendToLineEnabled then extendDoc cfg d1 else d1) := by
  unfold simpleAnnotate simpleAnnotateFuel at h
  cases hl : annotateLoop env cfg targets.length d targets with
  | error e => rw [hl] at h; cases h
  | ok r =>
    rw [hl] at h
    cases r with
    | none => cases h
    | some r =>
      obtain ⟨d1, left⟩ := r
      cases h
      exact ⟨d1, left, rfl, rfl⟩

/-- Whatever the matchers find, text, white space and lines stay as they are, and a token which has a sub
tag keeps it. -/
theorem C19_text_and_sub_tags (env : MatchEnv) (cfg : MatchCfg) (targets : List Target) (d d' : Doc)
    (h : simpleAnnotate env cfg targets d = .ok d') :
    SameBut d d' ∧ ∀ i, truthy (d.getSubTag i) = true → d'.getSubTag i = d.getSubTag i := by
  obtain ⟨d1, left, hl, rfl⟩ := C19_aux env cfg targets d d' h
  have g := (annotateLoop_grows env cfg _ d d1 targets left hl).1
  have ext : ∀ (ls : List Line) (d : Doc), SameBut d (ls.foldl (extendLine (extendCfg cfg)) d) ∧
      ∀ j, (ls.foldl (extendLine (extendCfg cfg)) d).getSubTag j = d.getSubTag j := by
    intro ls
    induction ls with
    | nil => exact fun d => ⟨.refl d, fun _ => rfl⟩
    | cons l ls ih =>
      intro d
      rw [List.foldl_cons]
      obtain ⟨i1, i2⟩ := ih (extendLine (extendCfg cfg) d l)
      exact ⟨(setTags_sameBut _ d).trans i1, fun j => (i2 j).trans (setTags_sub _ d j)⟩
  have hsub : ∀ i, truthy (d.getSubTag i) = true → d1.getSubTag i = d.getSubTag i := by
    intro i hi
    rcases g.sub i with e | ⟨e, _⟩
    · exact e
    · rw [hi] at e; cases e
  split
  · exact ⟨g.same.trans (ext d1.lines d1).1, fun i hi => ((ext d1.lines d1).2 i).trans (hsub i hi)⟩
  · exact ⟨g.same, hsub⟩

/-- Without extension to the line, a tagged token keeps its tag; a token whose tag is changed is one of the
document and gets the name of a target as tag, with a prefix if these are used. -/
theorem C19_never_overwrites (env : MatchEnv) (cfg : MatchCfg) (targets : List Target) (d d' : Doc)
    (hx : cfg.extendToLineEnabled = false) (hn : ∀ t ∈ targets, t.name ≠ [])
    (h : simpleAnnotate env cfg targets d = .ok d') (i : Nat) :
    (truthy (d.getTag i) = true → d'.getTag i = d.getTag i) ∧
    (d'.getTag i ≠ d.getTag i → i ∈ d.nonSpaceTokens ∧ ∃ t ∈ targets,
      (cfg.useBeginPrefix = true → d'.getTag i = some (c!"b-" ++ t.name) ∨ d'.getTag i = some (c!"i-" ++ t.name)) ∧
      (cfg.useBeginPrefix = false → d'.getTag i = some t.name)) := by
  obtain ⟨d1, left, hl, rfl⟩ := C19_aux env cfg targets d d' h
  simp only [hx, Bool.false_eq_true, if_false]
  have g := (annotateLoop_grows env cfg _ d d1 targets left hl).1
  constructor
  · intro hi
    rcases g.tag i with e | ⟨e, _⟩
    · exact e
    · rw [hi] at e; cases e
  · intro hne
    rcases g.tag i with e | ⟨_, e2, n, hm, k, e⟩
    · exact absurd e hne
    · obtain ⟨t, ht, rfl⟩ := List.mem_map.1 hm
      refine ⟨e2, t, ht, ?_, ?_⟩
      · intro hb
        rw [e, indexTag, indexPrefix, if_pos hb]
        split
        · left; exact addTagPrefix_of_truthy (hn t ht) (by decide)
        · right; exact addTagPrefix_of_truthy (hn t ht) (by decide)
      · intro hb
        rw [e, indexTag, indexPrefix, if_neg (by rw [hb]; decide)]
        simp [addTagPrefix]

/-- With extension to the line as well, a tagged token keeps the value of its tag (its prefix may change),
and every value given to an untagged token is the name of a target or a value found on the same line
before. -/
theorem C19_keeps_values (env : MatchEnv) (cfg : MatchCfg) (targets : List Target) (d d' : Doc)
    (hnd : d.nonSpaceTokens.Nodup) (hp : ∀ i, Spec.ProperTag (d.getTag i))
    (hn : ∀ t ∈ targets, t.name ≠ [] ∧ Spec.tagValue (some t.name) = some t.name)
    (h : simpleAnnotate env cfg targets d = .ok d') (i : Nat) :
    (d.getTag i ≠ none → Spec.tagValue (d'.getTag i) = Spec.tagValue (d.getTag i)) ∧
    (i ∉ d.nonSpaceTokens → d'.getTag i = d.getTag i) ∧
    ∀ v, d.getTag i = none → Spec.tagValue (d'.getTag i) = some v →
      (∃ t ∈ targets, v = t.name) ∨ ∃ l ∈ d.lines, i ∈ l.nonSpace ∧ ∃ j ∈ l.nonSpace, Spec.tagValue (d.getTag j) = some v := by
  obtain ⟨d1, left, hl, rfl⟩ := C19_aux env cfg targets d d' h
  have g := (annotateLoop_grows env cfg _ d d1 targets left hl).1
  have hnp : ∀ n ∈ targetNames targets, Spec.ProperTag (some n) := by
    intro n hm
    obtain ⟨t, ht, rfl⟩ := List.mem_map.1 hm
    intro s hs
    cases hs
    exact ⟨(hn t ht).1, by rw [(hn t ht).2]; simpa using (hn t ht).1⟩
  have hp1 := g.proper hnp hp
  have htru : d.getTag i ≠ none → truthy (d.getTag i) = true := by
    intro hne
    cases hg : d.getTag i with
    | none => exact absurd hg hne
    | some s => rw [truthy_some]; exact (hp i s hg).1
  have h1 : d.getTag i ≠ none → d1.getTag i = d.getTag i := by
    intro hne
    rcases g.tag i with e | ⟨e, _⟩
    · exact e
    · rw [htru hne] at e; cases e
  have h2 : i ∉ d.nonSpaceTokens → d1.getTag i = d.getTag i := by
    intro hni
    rcases g.tag i with e | ⟨_, e, _⟩
    · exact e
    · exact absurd e hni
  have h3 : ∀ j v, Spec.tagValue (d1.getTag j) = some v → d1.getTag j = d.getTag j ∨ ∃ t ∈ targets, v = t.name := by
    intro j v hv
    rcases g.tag j with e | ⟨_, _, n, hm, k, e⟩
    · exact .inl e
    · right
      obtain ⟨t, ht, rfl⟩ := List.mem_map.1 hm
      refine ⟨t, ht, ?_⟩
      rw [e, ← stripTagPrefix_eq_tagValue, indexTag_strip cfg t.name k (hn t ht).1 (hn t ht).2] at hv
      exact (Option.some.inj hv).symm
  split
  · have hns := g.same.nonSpaceTokens
    obtain ⟨_, _, c3, c4⟩ := C22_document cfg d1 (by rw [hns]; exact hnd) hp1
    have hpt : ∀ l : Line, ∀ t ∈ l.nonSpace.map (fun i => d1.getTag i), Spec.ProperTag t := by
      intro l t ht
      obtain ⟨j, _, rfl⟩ := List.mem_map.1 ht
      exact hp1 j
    refine ⟨?_, fun hni => (c3 i (by rw [hns]; exact hni)).trans (h2 hni), ?_⟩
    rotate_left
    · intro v hn0 hv
      by_cases hi : i ∈ d1.nonSpaceTokens
      · obtain ⟨l, hl, hil⟩ := List.mem_flatMap.1 hi
        obtain ⟨t, ht, hv2⟩ := C22_from_line (extendCfg cfg) _ (hpt l) ((extendDoc cfg d1).getTag i)
          (by rw [← c4 l hl]; exact List.mem_map.2 ⟨i, hil, rfl⟩) v hv
        obtain ⟨j, hj, rfl⟩ := List.mem_map.1 ht
        rcases h3 j v hv2 with e | e
        · exact .inr ⟨l, by rw [← g.same.lines]; exact hl, hil, j, hj, by rw [← e]; exact hv2⟩
        · exact .inl e
      · rw [c3 i hi] at hv
        rcases h3 i v hv with e | e
        · rw [e, hn0] at hv; cases hv
        · exact .inl e
    intro hne
    by_cases hi : i ∈ d1.nonSpaceTokens
    · obtain ⟨l, hl, hil⟩ := List.mem_flatMap.1 hi
      obtain ⟨k, hk, rfl⟩ := List.getElem_of_mem hil
      obtain ⟨t', ht', hv⟩ := (C22_keeps_values (extendCfg cfg) _ (hpt l)).2 k (d1.getTag l.nonSpace[k])
        (by rw [List.getElem?_map, List.getElem?_eq_getElem hk]; rfl) (by rw [h1 hne]; exact hne)
      rw [← c4 l hl, List.getElem?_map, List.getElem?_eq_getElem hk] at ht'
      cases ht'
      rw [hv, h1 hne]
    · rw [c3 i hi, h1 hne]
  · refine ⟨fun hne => by rw [h1 hne], h2, ?_⟩
    intro v hn0 hv
    rcases h3 i v hv with e | e
    · rw [e, hn0] at hv; cases hv
    · exact .inl e

/-- Together with the preparation of the document, tokens of preserved fields keep their original tag
through matching. -/
theorem C19_preserved_fields (acfg : AnnotateCfg) (env : MatchEnv) (cfg : MatchCfg) (targets : List Target) (d d' : Doc)
    (hx : cfg.extendToLineEnabled = false) (hn : ∀ t ∈ targets, t.name ≠ [])
    (h : simpleAnnotate env cfg targets (beforeAnnotator acfg d) = .ok d') (i : Nat) (hi : i ∈ d.allTokens)
    (f : Str) (hf : f ∈ acfg.preserveFields) (hne : f ≠ [])
    (hv : stripTagPrefix (d.getTagOrPreserved i) = some f) : d'.getTag i = d.getTagOrPreserved i :=
  Props.C14_preserved_fields_survive acfg (simpleAnnotate env cfg targets) d d'
    (fun d d' i h => (C19_never_overwrites env cfg targets d d' hx hn h i).1) h i hi f hf hne hv

/-! ### C20 A match is one entity -/

/-- Applying one match tags exactly the untagged tokens which overlap it in the text: the first with the
begin prefix, all others with the inside prefix (or without prefix if none are used). -/
theorem C20_one_entity (senv : SeqEnv) (cfg : MatchCfg) (hm : cfg.mainTags = true) (seqs : List (List Nat)) (range : Nat × Nat) (name : Str)
    (hname : name ≠ []) (d : Doc) (hne : ∀ s ∈ seqs, s ≠ []) (hnd : seqs.flatten.Nodup) :
    ∃ ranges, Spec.LaidOut (seqsText senv d seqs) (seqs.flatten.map (fun i => senv.filter (d.getText senv.cc i)))
        (Spec.tokenGaps d seqs) ranges ∧
      ∃ tokens, tokens = Spec.untagged d
          (((seqs.flatten.zip ranges).filter (fun x => Spec.overlaps range.1 range.2 x.2)).map Prod.fst) ∧
        (∀ (k : Nat) i, tokens[k]? = some i → (updateRange senv cfg seqs range name d).getTag i =
          some (if cfg.useBeginPrefix then (if k = 0 then c!"b-" else c!"i-") ++ name else name)) ∧
        (∀ i, i ∉ tokens → (updateRange senv cfg seqs range name d).getTag i = d.getTag i) := by
  obtain ⟨ranges, hlo, hb⟩ := C40_tokens_between senv d seqs hne
  refine ⟨ranges, hlo, _, rfl, ?_, ?_⟩
  · intro k i hk
    unfold updateRange
    simp only [hm, if_true]
    rw [hb]
    have hnd' : (Spec.untagged d (((seqs.flatten.zip ranges).filter
        (fun x => Spec.overlaps range.1 range.2 x.2)).map Prod.fst)).Nodup := by
      refine hnd.sublist (List.filter_sublist.trans ?_)
      exact (List.filter_sublist.map _).trans (map_fst_zip_sublist _ _)
    have := tagTokens_get cfg name d 0 _ hnd' k i hk
    unfold Spec.untagged at this
    rw [this, Nat.zero_add, indexTag, indexPrefix]
    cases cfg.useBeginPrefix with
    | false => simp [addTagPrefix]
    | true =>
      simp only [if_true]
      split
      · exact addTagPrefix_of_truthy hname (by decide)
      · exact addTagPrefix_of_truthy hname (by decide)
  · intro i hi
    unfold updateRange
    simp only [hm, if_true]
    rw [hb]
    exact tagTokens_other _ _ _ _ _ _ hi

/-! ### C21 Termination -/

/-- Annotating terminates: it takes at most as many rounds as there are target annotations, and more
rounds would not change the result. -/
theorem C21_terminates (env : MatchEnv) (cfg : MatchCfg) (targets : List Target) (d : Doc) (n : Nat)
    (hn : targets.length ≤ n) :
    (∃ r, simpleAnnotate env cfg targets d = r ∧
      simpleAnnotateFuel env cfg targets n d = (match r with | .ok d' => .ok (some d') | .error e => .error e)) := by
  refine ⟨_, rfl, ?_⟩
  unfold simpleAnnotate simpleAnnotateFuel
  have h1 := annotateLoop_fuel env cfg n d targets hn
  have h2 := (annotateLoop_fuel env cfg targets.length d targets (Nat.le_refl _)).1
  rw [h1.2]
  cases hl : annotateLoop env cfg targets.length d targets with
  | error e => rfl
  | ok r =>
    cases r with
    | none => exact absurd hl h2
    | some r => rfl

/-- Each target annotation which is left over at the end is one of those given, and is not found in the
text of all tokens which have no tag then (before tags are extended to lines). -/
theorem C21_left_over (env : MatchEnv) (cfg : MatchCfg) (targets left : List Target) (n : Nat) (d d' : Doc)
    (h : annotateLoop env cfg n d targets = .ok (some (d', left))) :
    left.Sublist targets ∧
    ∃ seqs, seqs.flatten = Spec.untagged d' d'.nonSpaceTokens ∧
      ∀ t ∈ left, matchingRanges env cfg (seqsText (matchSeqEnv env) d' seqs) t = .ok [] :=
  ⟨(annotateLoop_grows env cfg n d d' targets left h).2, _, C41_exactly_untagged d' d' (fun _ _ h => h),
    annotateLoop_complete env cfg n d d' targets left h⟩

/-! ### Examples -/

/-- A matcher which finds the first occurrence. -/
def exFind {α : Type} [DecidableEq α] (a b : List α) : List Block :=
  match (List.range a.length).find? (fun p => (a.drop p).take b.length = b) with
  | some p => [⟨p, 0, b.length⟩]
  | none => []

def exMatchEnv : MatchEnv := ⟨asciiClass, id, exFind, exFind, fun _ => 0, fun _ _ => .ok none, id⟩

/-- Two lines. -/
def exMatchDoc : Doc := Doc.ofLines [
  [⟨c!"on", false, [], none⟩, ⟨c!"some", false, [], none⟩, ⟨c!"title", false, [], none⟩],
  [⟨c!"by", false, [], none⟩, ⟨c!"author", false, [(c!"tag", c!"b-other")], none⟩, ⟨c!"abc", false, [], none⟩]]

def exTargets : List Target := [⟨c!"title", .one c!"some title", []⟩, ⟨c!"missing", .one c!"nowhere", []⟩,
  ⟨c!"name", .many [c!"abc", c!"xyz"], []⟩]

/-- Titles and names are found, the line of the title is completed, the existing tag stays. -/
example : exMatchDoc.nonSpaceTokens.Nodup ∧
    (∃ d', simpleAnnotate exMatchEnv {} exTargets exMatchDoc = .ok d' ∧
      d'.nonSpaceTokens.map (fun i => d'.getTag i) =
        [some c!"b-title", some c!"i-title", some c!"i-title", none, some c!"b-other", some c!"b-name"]) := by
  exact ⟨by decide, exists_of_okAnd (by decide +kernel)⟩

end Verif
