import Verif.Model.PostAnnotators
import Verif.Spec.PostAnnotators
import Verif.Lemmas.TeiDoc
import Verif.Lemmas.List

namespace Verif

theorem getAttr_setTagOnly (d : Doc) (i j : Nat) (tag : Option Str) (l : Option Nat) (s : Option Str) (m : Str) :
    (d.setTagOnly i tag l s).getAttr j m =
      if j = i ∧ m = scopedAttribName tagAttribName s l then tag else d.getAttr j m :=
  getAttr_setAttr d i j _ m tag

/-- What a loop does that visits each token once, reads only attributes of the visited token and
only sets one attribute of it. -/
theorem foldl_machine {S α : Type} (n : Str) (rd : Doc → Nat → α)
    (stp : S → α → S × Option (Option Str))
    (hrd : ∀ d d' i, d.getAttr i = d'.getAttr i → rd d i = rd d' i)
    (loop : S × Doc → Nat → S × Doc)
    (hloop : ∀ p i, loop p i = ((stp p.1 (rd p.2 i)).1,
      match (stp p.1 (rd p.2 i)).2 with | none => p.2 | some v => p.2.setAttr i n v))
    (d0 : Doc) (ids : List Nat) (hnd : ids.Nodup) (d : Doc) (s : S)
    (hd : ∀ i ∈ ids, d.getAttr i = d0.getAttr i) :
    SameBut d (ids.foldl loop (s, d)).2 ∧
    (∀ j, j ∉ ids → (ids.foldl loop (s, d)).2.getAttr j = d.getAttr j) ∧
    ∀ pre j post, ids = pre ++ j :: post → ∀ m, (ids.foldl loop (s, d)).2.getAttr j m =
      match (stp (pre.foldl (fun s i => (stp s (rd d0 i)).1) s) (rd d0 j)).2 with
      | none => d0.getAttr j m
      | some v => if m = n then v else d0.getAttr j m := by
  induction ids generalizing d s with
  | nil => exact ⟨.refl d, fun _ _ => rfl, by intro pre j post h; simp at h⟩
  | cons i ids ih =>
    rw [List.nodup_cons] at hnd
    have hi : rd d i = rd d0 i := hrd _ _ _ (hd i (by simp))
    -- the document after the first step
    have hstep : ∀ j, j ≠ i → (loop (s, d) i).2.getAttr j = d.getAttr j := by
      intro j hj
      rw [hloop]
      simp only
      split
      · rfl
      · funext m; rw [getAttr_setAttr]; simp [hj]
    have hsame : SameBut d (loop (s, d) i).2 := by
      rw [hloop]; simp only
      split
      · exact .refl d
      · exact sameBut_setAttr d i n _
    have key := ih hnd.2 (loop (s, d) i).2 (loop (s, d) i).1 (by
      intro k hk
      rw [hstep k (by rintro rfl; exact hnd.1 hk)]
      exact hd k (by simp [hk]))
    rw [List.foldl_cons]
    refine ⟨hsame.trans key.1, ?_, ?_⟩
    · intro j hj
      simp only [List.mem_cons, not_or] at hj
      rw [key.2.1 j hj.2, hstep j hj.1]
    · intro pre j post h m
      cases pre with
      | nil =>
        simp only [List.nil_append, List.cons.injEq] at h
        obtain ⟨rfl, rfl⟩ := h
        rw [key.2.1 i hnd.1, hloop]
        simp only [hi, List.foldl_nil]
        split
        · rw [hd i (by simp)]
        · rw [getAttr_setAttr, hd i (by simp)]
          simp
      | cons p pre =>
        simp only [List.cons_append, List.cons.injEq] at h
        obtain ⟨rfl, h⟩ := h
        rw [key.2.2 pre j post h m, List.foldl_cons, hloop]
        simp only [hi]

/-- The value a loop sees. -/
theorem truthy_valueOf (d : Doc) (l : Option Nat) (i : Nat) :
    (truthy (d.getTagOrPreservedValue i l) = true ∧ Spec.valueOf d l i = d.getTagOrPreservedValue i l ∧
      ∃ v, d.getTagOrPreservedValue i l = some v ∧ v ≠ []) ∨
    (truthy (d.getTagOrPreservedValue i l) = false ∧ Spec.valueOf d l i = none) := by
  unfold Spec.valueOf
  cases h : truthy (d.getTagOrPreservedValue i l) with
  | true =>
    obtain ⟨v, h1, h2⟩ := truthy_iff.1 h
    exact .inl ⟨rfl, by simp [h], v, h1, h2⟩
  | false => exact .inr ⟨rfl, by simp [h]⟩

theorem valueOf_congr {d d' : Doc} {i : Nat} (l : Option Nat) (h : d.getAttr i = d'.getAttr i) :
    Spec.valueOf d l i = Spec.valueOf d' l i := by
  have e : d.getTagOrPreservedValue i l = d'.getTagOrPreservedValue i l := by
    unfold Doc.getTagOrPreservedValue Doc.getTagOrPreserved Doc.getTag Doc.getPreservedTag
    rw [h]
  unfold Spec.valueOf
  rw [e]

theorem valueOf_ne_nil {d : Doc} {l : Option Nat} {i : Nat} {v : Str} (h : Spec.valueOf d l i = some v) : v ≠ [] := by
  unfold Spec.valueOf at h
  simp only at h
  split at h
  · next ht => rw [h] at ht; exact truthy_some.1 ht
  · cases h

theorem lastValue_append_cons (value : Nat → Option Str) (pre : List Nat) (j : Nat) :
    Spec.lastValue value (pre ++ [j]) = (value j).or (Spec.lastValue value pre) := by
  simp [Spec.lastValue, List.findSome?_cons]
  cases value j <;> simp

/-! ### Expanding to the following tokens and group tags -/

/-- The state machine of both annotators: `f` says what value is carried on. -/
def carryStep (f : Str → Option Str) (s : Option Str) (v : Option Str) : Option Str × Option (Option Str) :=
  match v with
  | some v => (f v, none)
  | none => if truthy s then (s, some (addTagPrefix s (some iPrefix))) else (s, none)

theorem carry_foldl (f : Str → Option Str) (value : Nat → Option Str) (pre : List Nat) :
    pre.foldl (fun s i => (carryStep f s (value i)).1) none = (Spec.lastValue value pre).bind f := by
  induction pre using snocInd with
  | nil => rfl
  | snoc pre j ih =>
    rw [List.foldl_append, ih, lastValue_append_cons]
    simp only [List.foldl_cons, List.foldl_nil, carryStep]
    cases value j with
    | some v => simp
    | none => simp; split <;> rfl

theorem addTagPrefix_i {v : Str} (hv : v ≠ []) :
    addTagPrefix (some v) (some iPrefix) = some (c!"i-" ++ v) :=
  addTagPrefix_of_truthy hv (by decide)

theorem addTagPrefix_b {v : Str} (hv : v ≠ []) :
    addTagPrefix (some v) (some bPrefix) = some (c!"b-" ++ v) :=
  addTagPrefix_of_truthy hv (by decide)

theorem tagName_none : scopedAttribName tagAttribName none none = c!"tag" := by decide

/-- Effect of setting a new tag (if any) for one token. -/
def Updated (d d' : Doc) (name : Str) (j : Nat) (new : Option Str) : Prop :=
  ∀ m, d'.getAttr j m = if m = name ∧ new.isSome then new else d.getAttr j m

theorem expandFollowing_effect (enabled : List Str) (d : Doc) (hnd : d.nonSpaceTokens.Nodup) :
    SameBut d (expandFollowing enabled d) ∧
    (∀ j, j ∉ d.nonSpaceTokens → (expandFollowing enabled d).getAttr j = d.getAttr j) ∧
    ∀ pre j post, d.nonSpaceTokens = pre ++ j :: post →
      Updated d (expandFollowing enabled d) c!"tag" j
        (Spec.expandFollowingTag (Spec.valueOf d none) enabled pre j) := by
  have h := foldl_machine (S := Option Str) c!"tag" (fun d i => Spec.valueOf d none i)
    (carryStep (fun v => if enabled.contains v then some v else none))
    (fun d d' i h => valueOf_congr none h) (expandFollowingStep enabled) ?_ d d.nonSpaceTokens hnd d none
    (fun _ _ => rfl)
  · refine ⟨h.1, h.2.1, ?_⟩
    intro pre j post hs m
    have := h.2.2 pre j post hs m
    unfold expandFollowing
    rw [this, carry_foldl]
    unfold Spec.expandFollowingTag carryStep
    cases hv : Spec.valueOf d none j with
    | some v => simp
    | none =>
      cases hl : Spec.lastValue (Spec.valueOf d none) pre with
      | none => simp
      | some v =>
        have hne : v ≠ [] := by
          obtain ⟨i, _, hi⟩ := List.exists_of_findSome?_eq_some hl
          exact valueOf_ne_nil hi
        by_cases he : v ∈ enabled
        · simp only [Option.bind_some, List.contains_iff_mem, he, if_true, truthy_some.2 hne, addTagPrefix_i hne]
          by_cases hm : m = c!"tag" <;> simp [hm]
        · simp [he]
  · rintro ⟨s, d⟩ i
    unfold expandFollowingStep carryStep
    simp only
    rcases truthy_valueOf d none i with ⟨h1, h2, v, h3, h4⟩ | ⟨h1, h2⟩
    · rw [h2]; simp [h3, truthy_some.2 h4]
    · rw [h2]
      by_cases ht : truthy s = true
      · simp [h1, ht, Doc.setTagOnly, tagName_none]
      · simp [h1, ht]

theorem foldl_skip {α S : Type} (c : α → Bool) (f : S → α → S) (l : List α) (s : S) :
    l.foldl (fun s a => if c a then f s a else s) s = (l.filter c).foldl f s := by
  induction l generalizing s with
  | nil => rfl
  | cons a l ih =>
    rw [List.foldl_cons, ih, List.filter_cons]
    cases c a <;> simp

/-- Whether a token is looked at when merging group tags. -/
def considered (d : Doc) (level : Option Nat) (i : Nat) : Bool :=
  level.isNone || truthy (d.getTagOrPreserved i)

theorem considered_congr {d d' : Doc} {i : Nat} (l : Option Nat) (h : d.getAttr i = d'.getAttr i) :
    considered d l i = considered d' l i := by
  unfold considered Doc.getTagOrPreserved Doc.getTag Doc.getPreservedTag
  rw [h]

theorem mergeGroup_effect (group : Str → Option Str) (level : Option Nat) (d : Doc)
    (hnd : d.nonSpaceTokens.Nodup) :
    SameBut d (mergeGroupTags group level d) ∧
    (∀ j, j ∉ d.nonSpaceTokens → (mergeGroupTags group level d).getAttr j = d.getAttr j) ∧
    ∀ pre j post, d.nonSpaceTokens = pre ++ j :: post →
      Updated d (mergeGroupTags group level d) (scopedAttribName c!"tag" none level) j
        (if considered d level j then
          Spec.groupTag (Spec.valueOf d level) group (pre.filter (considered d level)) j
        else none) := by
  have h := foldl_machine (S := Option Str) (scopedAttribName c!"tag" none level)
    (fun d i => (considered d level i, Spec.valueOf d level i))
    (fun s v => if v.1 then carryStep group s v.2 else (s, none))
    (fun d d' i h => by
      rw [valueOf_congr level h, considered_congr level h]) (mergeGroupStep group level) ?_ d d.nonSpaceTokens
    hnd d none (fun _ _ => rfl)
  · refine ⟨h.1, h.2.1, ?_⟩
    intro pre j post hs m
    have := h.2.2 pre j post hs m
    unfold mergeGroupTags
    rw [this]
    have e : (fun (s : Option Str) i =>
        (if considered d level i = true then carryStep group s (Spec.valueOf d level i) else (s, none)).1) =
        fun s i => if considered d level i = true then (carryStep group s (Spec.valueOf d level i)).1 else s := by
      funext s i; split <;> rfl
    simp only
    rw [e, foldl_skip, carry_foldl]
    by_cases hc : considered d level j = true
    · simp only [hc, if_true]
      unfold Spec.groupTag carryStep
      cases hv : Spec.valueOf d level j with
      | some v => simp
      | none =>
        cases hl : Spec.lastValue (Spec.valueOf d level) (pre.filter (considered d level)) with
        | none => simp
        | some v =>
          simp only [Option.bind_some]
          cases ht : truthy (group v) with
          | false => simp
          | true =>
            obtain ⟨g, hg, hne⟩ := truthy_iff.1 ht
            rw [hg]
            simp only [if_true, addTagPrefix_i hne]
            by_cases hm : m = scopedAttribName c!"tag" none level <;> simp [hm]
    · simp [hc]
  · rintro ⟨s, d⟩ i
    unfold mergeGroupStep
    simp only
    have hc : (level.isSome && !truthy (d.getTagOrPreserved i)) = !considered d level i := by
      unfold considered; cases level <;> simp
    rw [hc]
    cases considered d level i with
    | false => rfl
    | true =>
      simp only [Bool.not_true, Bool.false_eq_true, if_false, if_true]
      unfold carryStep
      rcases truthy_valueOf d level i with ⟨h1, h2, v, h3, h4⟩ | ⟨h1, h2⟩
      · rw [h2]; simp [h3, truthy_some.2 h4]
      · rw [h2]
        by_cases ht : truthy s = true
        · simp [h1, ht, Doc.setTagOnly, tagAttribName]
        · simp [h1, ht]

/-! ### Expanding to the previous tokens -/

theorem getAttr_tagPending (d : Doc) (v : Str) (hv : v ≠ []) (l : List Nat) (hnd : l.Nodup) (j : Nat) (m : Str) :
    (tagPending d v l).getAttr j m =
      if m = c!"tag" ∧ j ∈ l then some ((if l.head? = some j then c!"b-" else c!"i-") ++ v)
      else d.getAttr j m := by
  cases l with
  | nil => simp [tagPending]
  | cons i is =>
    rw [List.nodup_cons] at hnd
    have key : ∀ (is : List Nat) (d : Doc),
        (is.foldl (fun d j => d.setTagOnly j (addTagPrefix (some v) (some iPrefix))) d).getAttr j m =
          if m = c!"tag" ∧ j ∈ is then some (c!"i-" ++ v) else d.getAttr j m := by
      intro is
      induction is with
      | nil => simp
      | cons k ks ih =>
        intro d
        rw [List.foldl_cons, ih, getAttr_setTagOnly, tagName_none, addTagPrefix_i hv]
        by_cases hm : m = c!"tag" <;> by_cases hk : j = k <;> by_cases hks : j ∈ ks <;> simp [hm, hk, hks]
    unfold tagPending
    rw [key, getAttr_setTagOnly, tagName_none, addTagPrefix_b hv]
    by_cases hm : m = c!"tag"
    · by_cases hj : j = i
      · subst hj; simp [hm, hnd.1]
      · by_cases hjs : j ∈ is
        · simp [hm, hjs, Ne.symm hj]
        · simp [hm, hj, hjs]
    · simp [hm]

theorem sameBut_setTagOnly (d : Doc) (i : Nat) (t : Option Str) (l : Option Nat) (s : Option Str) :
    SameBut d (d.setTagOnly i t l s) := sameBut_setAttr d i _ t

theorem sameBut_tagPending (d : Doc) (v : Str) (l : List Nat) : SameBut d (tagPending d v l) := by
  cases l with
  | nil => exact .refl d
  | cons i is =>
    exact (sameBut_setTagOnly d i _ _ _).trans (sameBut_foldl _ (fun d j => sameBut_setTagOnly d j _ _ _) is _)

/-- The loop from a state with pending untagged tokens. -/
theorem expandPrevious_loop (enabled : List Str) (d0 : Doc) (ids pending : List Nat) (d : Doc)
    (hnd : (pending ++ ids).Nodup)
    (hd : ∀ i ∈ pending ++ ids, d.getAttr i = d0.getAttr i)
    (hp : ∀ i ∈ pending, Spec.valueOf d0 none i = none) :
    SameBut d (ids.foldl (expandPreviousStep enabled) ⟨d, pending⟩).doc ∧
    (∀ j, j ∉ pending ++ ids →
      (ids.foldl (expandPreviousStep enabled) ⟨d, pending⟩).doc.getAttr j = d.getAttr j) ∧
    ∀ pre j post, pending ++ ids = pre ++ j :: post →
      Updated d0 (ids.foldl (expandPreviousStep enabled) ⟨d, pending⟩).doc c!"tag" j
        (Spec.expandPreviousTag (Spec.valueOf d0 none) enabled pre j post) := by
  induction ids generalizing pending d with
  | nil =>
    refine ⟨.refl d, fun _ _ => rfl, ?_⟩
    intro pre j post hs m
    simp only [List.append_nil] at hs hp hd
    have h1 : Spec.valueOf d0 none j = none := hp j (by rw [hs]; simp)
    have h2 : post.findSome? (Spec.valueOf d0 none) = none := by
      rw [List.findSome?_eq_none_iff]
      intro x hx
      exact hp x (by rw [hs]; simp [hx])
    simp only [List.foldl_nil]
    unfold Spec.expandPreviousTag
    rw [h1, h2]
    simp [hd j (by rw [hs]; simp)]
  | cons i ids ih =>
    rw [List.foldl_cons]
    have hi : d.getAttr i = d0.getAttr i := hd i (by simp)
    have hval : Spec.valueOf d none i = Spec.valueOf d0 none i := valueOf_congr none hi
    rcases truthy_valueOf d none i with ⟨h1, h2, v, h3, h4⟩ | ⟨h1, h2⟩
    · -- a tagged token
      rw [hval] at h2
      rw [h3] at h2
      have hnd' : ids.Nodup := (List.nodup_append.1 hnd).2.1.tail
      have hi_ids : i ∉ ids := (List.nodup_cons.1 (List.nodup_append.1 hnd).2.1).1
      have hdis : ∀ a ∈ pending, a ≠ i ∧ a ∉ ids := by
        intro a ha
        have := (List.nodup_append.1 hnd).2.2 a ha
        exact ⟨this i (by simp), fun h => this a (by simp [h]) rfl⟩
      have hpnd : pending.Nodup := (List.nodup_append.1 hnd).1
      -- the state after this token
      obtain ⟨d1, hstep, hsame1, hattr⟩ : ∃ d1, expandPreviousStep enabled ⟨d, pending⟩ i = ⟨d1, []⟩ ∧
          SameBut d d1 ∧
          ∀ j m, d1.getAttr j m =
            if v ∈ enabled ∧ pending ≠ [] ∧ m = c!"tag" ∧ (j ∈ pending ∨ j = i) then
              some ((if pending.head? = some j then c!"b-" else c!"i-") ++ v)
            else d.getAttr j m := by
        unfold expandPreviousStep
        simp only [h3, truthy_some.2 h4, Bool.not_true, Bool.false_eq_true, if_false, Option.getD_some]
        cases pending with
        | nil => exact ⟨d, rfl, .refl d, by simp⟩
        | cons p ps =>
          by_cases he : v ∈ enabled
          · have hc : enabled.contains v = true := List.contains_iff_mem.2 he
            simp only [List.isEmpty_cons, Bool.not_true, Bool.false_eq_true, if_false, hc]
            refine ⟨_, rfl, (sameBut_tagPending _ _ _).trans (sameBut_setTagOnly _ _ _ _ _), ?_⟩
            intro j m
            rw [getAttr_setTagOnly, getAttr_tagPending d v h4 _ hpnd, tagName_none, addTagPrefix_i h4]
            by_cases hm : m = c!"tag"
            · by_cases hj : j = i
              · subst hj
                have : p ≠ j := (hdis p (by simp)).1
                simp [hm, this, he]
              · simp [hm, hj, he]
            · simp [hm]
          · simp only [List.isEmpty_cons, Bool.false_eq_true, if_false]
            exact ⟨d, by simp [he], .refl d, by simp [he]⟩
      rw [hstep]
      have key := ih [] d1 (by simpa using hnd') (by
        intro k hk
        simp only [List.nil_append] at hk
        have hk2 : k ∉ pending := fun h => (hdis k h).2 hk
        have hk3 : k ≠ i := by rintro rfl; exact hi_ids hk
        funext m
        rw [hattr]
        simp only [hk2, hk3, or_self, and_false, if_false]
        rw [hd k (by simp [hk])]) (by simp)
      simp only [List.nil_append] at key
      refine ⟨hsame1.trans key.1, ?_, ?_⟩
      · intro j hj
        simp only [List.mem_append, List.mem_cons, not_or] at hj
        rw [key.2.1 j hj.2.2]
        funext m
        rw [hattr]
        simp [hj.1, hj.2.1]
      · intro pre j post hs m
        by_cases hjids : j ∈ ids
        · -- in the rest
          rcases List.append_eq_append_iff.1 hs with ⟨a, ha1, ha2⟩ | ⟨a, ha1, ha2⟩
          · -- pre = pending ++ a, i :: ids = a ++ j :: post
            cases a with
            | nil =>
              simp only [List.nil_append, List.cons.injEq] at ha2
              exact absurd (ha2.1 ▸ hjids) hi_ids
            | cons x a =>
              simp only [List.cons_append, List.cons.injEq] at ha2
              obtain ⟨rfl, ha2⟩ := ha2
              have := key.2.2 a j post ha2 m
              rw [this]
              have e : Spec.expandPreviousTag (Spec.valueOf d0 none) enabled a j post =
                  Spec.expandPreviousTag (Spec.valueOf d0 none) enabled pre j post := by
                unfold Spec.expandPreviousTag
                rw [ha1]
                cases a with
                | nil => simp [h2]
                | cons y a =>
                  have hl : (pending ++ i :: y :: a).getLast? = (y :: a).getLast? := by
                    simp [List.getLast?_append, List.getLast?_cons]
                  rw [hl]
              rw [e]
          · -- pending = pre ++ a
            cases a with
            | nil =>
              simp only [List.nil_append, List.cons.injEq] at ha2
              exact absurd (ha2.1 ▸ hjids) hi_ids
            | cons x a =>
              simp only [List.cons_append, List.cons.injEq] at ha2
              have hx : j ∈ pending := by rw [ha1]; simp [ha2.1]
              exact absurd hjids (hdis j hx).2
        · rw [key.2.1 j hjids, hattr]
          rcases List.append_eq_append_iff.1 hs with ⟨a, ha1, ha2⟩ | ⟨a, ha1, ha2⟩
          · cases a with
            | cons x a =>
              simp only [List.cons_append, List.cons.injEq] at ha2
              exact absurd (by rw [ha2.2]; simp) hjids
            | nil =>
              simp only [List.nil_append, List.cons.injEq, List.append_nil] at ha2 ha1
              obtain ⟨rfl, rfl⟩ := ha2
              subst ha1
              have hjp : i ∉ pre := fun h => (hdis i h).1 rfl
              unfold Spec.expandPreviousTag
              rw [h2]
              simp only
              have hlast : pre.getLast?.any (fun p => (Spec.valueOf d0 none p).isNone) = true ↔ pre ≠ [] := by
                constructor
                · rintro h rfl; simp at h
                · intro h
                  obtain ⟨x, hx⟩ : ∃ x, pre.getLast? = some x := by
                    cases hl : pre.getLast? with
                    | none => exact absurd (List.getLast?_eq_none_iff.1 hl) h
                    | some x => exact ⟨x, rfl⟩
                  rw [hx]
                  simp [hp x (List.mem_of_getLast? hx)]
              have hhead : pre.head? ≠ some i := fun h => hjp (List.mem_of_head? h)
              simp only [hlast]
              rw [hi]
              by_cases he : v ∈ enabled <;> by_cases hpe : pre = [] <;> by_cases hm : m = c!"tag" <;>
                simp [he, hpe, hm, hhead]
          · cases a with
            | nil =>
              simp only [List.nil_append, List.cons.injEq, List.append_nil] at ha2 ha1
              obtain ⟨rfl, rfl⟩ := ha2
              subst ha1
              have hjp : j ∉ pending := fun h => (hdis j h).1 rfl
              unfold Spec.expandPreviousTag
              rw [h2]
              simp only
              have hlast : pending.getLast?.any (fun p => (Spec.valueOf d0 none p).isNone) = true ↔ pending ≠ [] := by
                constructor
                · rintro h rfl; simp at h
                · intro h
                  obtain ⟨x, hx⟩ : ∃ x, pending.getLast? = some x := by
                    cases hl : pending.getLast? with
                    | none => exact absurd (List.getLast?_eq_none_iff.1 hl) h
                    | some x => exact ⟨x, rfl⟩
                  rw [hx]
                  simp [hp x (List.mem_of_getLast? hx)]
              have hhead : pending.head? ≠ some j := fun h => hjp (List.mem_of_head? h)
              simp only [hlast]
              rw [hi]
              by_cases he : v ∈ enabled <;> by_cases hpe : pending = [] <;> by_cases hm : m = c!"tag" <;>
                simp [he, hpe, hm, hhead]
            | cons x a =>
              simp only [List.cons_append, List.cons.injEq] at ha2
              obtain ⟨rfl, ha2⟩ := ha2
              have hjp : j ∈ pending := by rw [ha1]; simp
              have hjv : Spec.valueOf d0 none j = none := hp j hjp
              have hpost : post.findSome? (Spec.valueOf d0 none) = some v := by
                rw [ha2, List.findSome?_append]
                have : a.findSome? (Spec.valueOf d0 none) = none := by
                  rw [List.findSome?_eq_none_iff]
                  intro y hy
                  exact hp y (by rw [ha1]; simp [hy])
                rw [this]
                simp [h2]
              unfold Spec.expandPreviousTag
              rw [hjv, hpost]
              simp only
              rw [hd j (by simp [hjp])]
              have hpe : pending ≠ [] := by rintro rfl; simp at hjp
              have hhead : (pending.head? = some j) ↔
                  pre.getLast?.all (fun p => (Spec.valueOf d0 none p).isSome) = true := by
                cases pre with
                | nil => simp [ha1]
                | cons y pre =>
                  have hy : pending.head? = some y := by rw [ha1]; rfl
                  have hyj : y ≠ j := by
                    rintro rfl
                    rw [ha1] at hpnd
                    simp at hpnd
                  obtain ⟨z, hz⟩ : ∃ z, (y :: pre).getLast? = some z := by
                    cases hl : (y :: pre).getLast? with
                    | none => simp at hl
                    | some x => exact ⟨x, rfl⟩
                  have hzp : Spec.valueOf d0 none z = none :=
                    hp z (by rw [ha1]; exact List.mem_append_left _ (List.mem_of_getLast? hz))
                  rw [hy, hz]
                  simp [hyj, hzp]
              by_cases he : v ∈ enabled
              · by_cases hm : m = c!"tag"
                · by_cases hh : pending.head? = some j
                  · simp [he, hm, hjp, hpe, hh, hhead.1 hh]
                  · have hf : pre.getLast?.all (fun p => (Spec.valueOf d0 none p).isSome) = false :=
                      Bool.eq_false_iff.2 (fun h => hh (hhead.2 h))
                    rw [hf]
                    simp [he, hm, hjp, hpe, hh]
                · simp [hm]
              · simp [he]
    · -- an untagged token
      rw [hval] at h2
      have hstep : expandPreviousStep enabled ⟨d, pending⟩ i = ⟨d, pending ++ [i]⟩ := by
        unfold expandPreviousStep
        simp [h1]
      rw [hstep]
      have e : pending ++ [i] ++ ids = pending ++ i :: ids := by simp
      have key := ih (pending ++ [i]) d (by rw [e]; exact hnd) (by rw [e]; exact hd) (by
        intro k hk
        simp only [List.mem_append, List.mem_singleton] at hk
        rcases hk with hk | rfl
        · exact hp k hk
        · exact h2)
      rw [e] at key
      exact key

/-! ### Replacing tags -/

/-- The token has no (non-empty) preserved tag values. -/
def NoPreserved (d : Doc) (i : Nat) : Prop :=
  ¬ truthy (stripTagPrefix (d.getPreservedTag i)) = true ∧
  ¬ truthy (stripTagPrefix (d.getPreservedTag i (some subLevel))) = true

theorem clearSamePreserved_id {d : Doc} {i : Nat} {l : Option Nat}
    (h : ¬ truthy (stripTagPrefix (d.getPreservedTag i l)) = true) : d.clearSamePreserved i l = d := by
  have e : d.clearSamePreserved i l =
      if truthy (stripTagPrefix (d.getPreservedTag i l)) = true then
        (d.lineOf i).foldl (fun d' j =>
          if stripTagPrefix (d'.getPreservedTag j l) = stripTagPrefix (d.getPreservedTag i l) then
            d'.setPreservedTag j none l
          else d') d
      else d := rfl
  rw [e, if_neg h]

theorem getPreservedTag_setTagOnly (d : Doc) (i j : Nat) (t : Option Str) (l : Option Nat) (s : Option Str)
    (l' : Option Nat) : (d.setTagOnly i t l s).getPreservedTag j l' = d.getPreservedTag j l' := by
  unfold Doc.getPreservedTag Doc.setTagOnly
  rw [getAttr_setAttr, if_neg]
  exact fun h => scopedTag_ne_preserved s l l' h.2.symm

theorem setTag_of_noPreserved {d : Doc} {i : Nat} (h : NoPreserved d i) (t : Option Str) :
    d.setTag i t = d.setTagOnly i t := by
  have h1 : (d.setTagOnly i t).clearSamePreserved i none = d.setTagOnly i t :=
    clearSamePreserved_id (by rw [getPreservedTag_setTagOnly]; exact h.1)
  have h2 : (d.setTagOnly i t).clearSamePreserved i (some subLevel) = d.setTagOnly i t :=
    clearSamePreserved_id (by rw [getPreservedTag_setTagOnly]; exact h.2)
  unfold Doc.setTag
  simp only [h1, h2, if_true]
  split
  · rfl
  · split <;> rfl

theorem noPreserved_congr {d d' : Doc} {i : Nat} (h : d.getAttr i = d'.getAttr i) :
    NoPreserved d i ↔ NoPreserved d' i := by
  unfold NoPreserved Doc.getPreservedTag; rw [h]

theorem addTagPrefix_split (full : Str) (new : Option Str) :
    addTagPrefix new (splitTagPrefix (some full)).1 = new.map (fun w => Spec.renameTag (fun _ => w) full) := by
  cases new with
  | none => simp [addTagPrefix_none_left]
  | some w =>
    simp only [Option.map_some]
    rcases splitTagPrefix_match full with ⟨v, rfl, h⟩ | ⟨v, rfl, h⟩ | ⟨h1, h2, h⟩
    · rw [h]; exact addTagPrefix_withPrefix _ _ (by decide)
    · rw [h]; exact addTagPrefix_withPrefix _ _ (by decide)
    · rw [h]
      unfold Spec.renameTag
      split
      · next v => exact absurd rfl (h1 v)
      · next v => exact absurd rfl (h2 v)
      · rfl

theorem replaceTagsStep_eq (repl : Dict (Option Str)) (d : Doc) (i : Nat)
    (h : (Spec.replacedTag repl (Spec.valueOf d none i) (d.getTagOrPreserved i)).isSome → NoPreserved d i) :
    replaceTagsStep repl d i =
      match Spec.replacedTag repl (Spec.valueOf d none i) (d.getTagOrPreserved i) with
      | none => d
      | some t => d.setAttr i c!"tag" t := by
  have e : replaceTagsStep repl d i =
      if !truthy (d.getTagOrPreservedValue i) then d
      else match repl.get? ((d.getTagOrPreservedValue i).getD []) with
        | none => d
        | some new => d.setTag i (addTagPrefix new (splitTagPrefix (d.getTagOrPreserved i)).1) := rfl
  rw [e]
  rcases truthy_valueOf d none i with ⟨h1, h2, v, h3, h4⟩ | ⟨h1, h2⟩
  · rw [h2] at h ⊢
    rw [h3] at h ⊢
    simp only [truthy_some.2 h4, Bool.not_true, Bool.false_eq_true, if_false, Option.getD_some]
    unfold Spec.replacedTag at h ⊢
    simp only [Option.bind_some] at h ⊢
    cases hr : repl.get? v with
    | none => rfl
    | some new =>
      rw [hr] at h
      obtain ⟨full, hf⟩ : ∃ full, d.getTagOrPreserved i = some full := by
        cases hg : d.getTagOrPreserved i with
        | some f => exact ⟨f, rfl⟩
        | none =>
          unfold Doc.getTagOrPreservedValue at h3
          rw [hg] at h3
          cases h3
      simp only [Option.map_some]
      rw [setTag_of_noPreserved (h rfl), hf, addTagPrefix_split]
      rfl
  · rw [h2]
    simp [h1, Spec.replacedTag]

theorem replaceTags_effect (repl : Dict (Option Str)) (d0 : Doc) (ids : List Nat) (hnd : ids.Nodup) (d : Doc)
    (hd : ∀ i ∈ ids, d.getAttr i = d0.getAttr i)
    (hp : ∀ i ∈ ids, (Spec.replacedTag repl (Spec.valueOf d0 none i) (d0.getTagOrPreserved i)).isSome →
      NoPreserved d0 i) :
    SameBut d (ids.foldl (replaceTagsStep repl) d) ∧
    (∀ j, j ∉ ids → (ids.foldl (replaceTagsStep repl) d).getAttr j = d.getAttr j) ∧
    ∀ j ∈ ids, ∀ m, (ids.foldl (replaceTagsStep repl) d).getAttr j m =
      if m = c!"tag" then
        (Spec.replacedTag repl (Spec.valueOf d0 none j) (d0.getTagOrPreserved j)).getD (d0.getAttr j m)
      else d0.getAttr j m := by
  induction ids generalizing d with
  | nil => exact ⟨.refl d, fun _ _ => rfl, by simp⟩
  | cons i ids ih =>
    rw [List.nodup_cons] at hnd
    rw [List.foldl_cons]
    have hi := hd i (by simp)
    have htp : d.getTagOrPreserved i = d0.getTagOrPreserved i := by
      unfold Doc.getTagOrPreserved Doc.getTag Doc.getPreservedTag; rw [hi]
    have hstep := replaceTagsStep_eq repl d i (by
      rw [valueOf_congr none hi, htp, noPreserved_congr hi]
      exact hp i (by simp))
    rw [valueOf_congr none hi, htp] at hstep
    have hs : SameBut d (replaceTagsStep repl d i) := by
      rw [hstep]; split
      · exact .refl d
      · exact sameBut_setAttr _ _ _ _
    have ha : ∀ j m, (replaceTagsStep repl d i).getAttr j m =
        if j = i ∧ m = c!"tag" then
          (Spec.replacedTag repl (Spec.valueOf d0 none i) (d0.getTagOrPreserved i)).getD (d.getAttr j m)
        else d.getAttr j m := by
      intro j m
      rw [hstep]
      cases Spec.replacedTag repl (Spec.valueOf d0 none i) (d0.getTagOrPreserved i) with
      | none => simp
      | some t => simp only [Option.getD_some]; rw [getAttr_setAttr]
    obtain ⟨k1, k2, k3⟩ := ih hnd.2 (replaceTagsStep repl d i)
      (by
        intro k hk
        have hki : k ≠ i := by rintro rfl; exact hnd.1 hk
        funext m
        rw [ha, if_neg (fun h => hki h.1), hd k (by simp [hk])])
      (fun k hk => hp k (by simp [hk]))
    refine ⟨hs.trans k1, ?_, ?_⟩
    · intro j hj
      simp only [List.mem_cons, not_or] at hj
      rw [k2 j hj.2]
      funext m
      rw [ha, if_neg (fun h => hj.1 h.1)]
    · intro j hj m
      by_cases hji : j = i
      · subst hji
        rw [k2 j hnd.1, ha, hi]
        simp
      · exact k3 j (by simpa [hji] using hj) m

/-! ### Well formed documents -/

theorem nonSpaceTokens_ofLines (ls : List (List Tok)) :
    (Doc.ofLines ls).nonSpaceTokens =
      (Doc.ofLines ls).allTokens.filter (fun i => !((Doc.ofLines ls).tok i).isSpace) := by
  simp only [Doc.nonSpaceTokens, Doc.allTokens, Doc.ofLines]
  generalize Doc.number 0 ls = l
  induction l with
  | nil => rfl
  | cons a l ih => rw [List.map_cons, List.flatMap_cons, ih, List.flatMap_cons, List.filter_append]

theorem sameBut_loadDoc {cfg : DocCfg} {root : Elem} {d : Doc} (hl : loadDoc cfg root = .ok d) :
    ∃ lines, SameBut (Doc.ofLines lines) d := by
  unfold loadDoc at hl
  split at hl
  · cases hl
  · next lines _ =>
    simp only [Except.ok.injEq] at hl
    refine ⟨lines, ?_⟩
    rw [← hl]
    refine SameBut.trans ?_ (sameBut_resetCurrentTags _)
    split
    · exact sameBut_preserveCurrentTags _ _
    · exact .refl _

theorem SameBut.nonSpaceTokens {d d' : Doc} (h : SameBut d d') : d'.nonSpaceTokens = d.nonSpaceTokens := by
  unfold Doc.nonSpaceTokens; rw [h.lines]

/-- The tokens of a loaded document, also after changing its tags, are distinct. -/
theorem nodup_loadDoc {cfg : DocCfg} {root : Elem} {d d' : Doc} (hl : loadDoc cfg root = .ok d)
    (hs : SameBut d d') : d'.allTokens.Nodup ∧ d'.nonSpaceTokens.Nodup := by
  obtain ⟨lines, h⟩ := sameBut_loadDoc hl
  have h' := h.trans hs
  rw [h'.allTokens, h'.nonSpaceTokens, nonSpaceTokens_ofLines, allTokens_ofLines]
  exact ⟨List.nodup_range, List.nodup_range.filter _⟩

/-! ### Preparing a document -/

theorem getTagOrPreserved_congr {d d' : Doc} {i : Nat} (h : d.getAttr i = d'.getAttr i) (l : Option Nat) :
    d.getTagOrPreserved i l = d'.getTagOrPreserved i l := by
  unfold Doc.getTagOrPreserved Doc.getTag Doc.getPreservedTag; rw [h]

/-- Tag or preserved tag, given the attributes of a token. -/
def tagOr (l : Option Nat) (a : Str → Option Str) : Option Str :=
  pyOr (a (scopedAttribName tagAttribName none l)) (a (scopedAttribName preservedTagAttribName none l))

/-- What `_map_token_tags` does with the attributes of a token. -/
def mapAttrs (fn : Option Str → Option Str) (l : Option Nat) (a : Str → Option Str) (m : Str) : Option Str :=
  if fn (tagOr l a) ≠ tagOr l a then
    if m = scopedAttribName tagAttribName none l then fn (tagOr l a)
    else if m = scopedAttribName preservedTagAttribName none l then none
    else a m
  else a m

theorem tagOr_mapAttrs {fn : Option Str → Option Str} (hfn : ∀ t, fn t = t ∨ fn t = none) (l : Option Nat)
    (a : Str → Option Str) : tagOr l (mapAttrs fn l a) = fn (tagOr l a) := by
  by_cases h : fn (tagOr l a) ≠ tagOr l a
  · have hn : fn (tagOr l a) = none := (hfn _).resolve_left h
    have hne : scopedAttribName preservedTagAttribName none l ≠ scopedAttribName tagAttribName none l :=
      fun h => scopedTag_ne_preserved none l l h.symm
    have e1 : mapAttrs fn l a (scopedAttribName tagAttribName none l) = none := by
      unfold mapAttrs; rw [if_pos h, if_pos rfl, hn]
    have e2 : mapAttrs fn l a (scopedAttribName preservedTagAttribName none l) = none := by
      unfold mapAttrs; rw [if_pos h, if_neg hne, if_pos rfl]
    unfold tagOr
    rw [e1, e2]
    exact hn.symm
  · have e : mapAttrs fn l a = a := by funext m; unfold mapAttrs; rw [if_neg h]
    rw [e]
    exact (Decidable.not_not.1 h).symm

theorem getAttr_mapTokenTags {fn : Option Str → Option Str} (hfn : ∀ t, fn t = t ∨ fn t = none)
    (l : Option Nat) (d : Doc) (j : Nat) :
    (mapTokenTags fn l d).getAttr j = if j ∈ d.allTokens then mapAttrs fn l (d.getAttr j) else d.getAttr j := by
  unfold mapTokenTags
  apply foldl_attr
  · intro d i j m
    have e : mapTokenTagsStep fn l d i =
        if fn (tagOr l (d.getAttr i)) ≠ tagOr l (d.getAttr i) then
          (d.setTagOnly i (fn (tagOr l (d.getAttr i))) l).clearPreservedTagOnly i l
        else d := rfl
    rw [e]
    by_cases hji : j = i
    · subst hji
      rw [if_pos rfl]
      unfold mapAttrs
      by_cases h : fn (tagOr l (d.getAttr j)) ≠ tagOr l (d.getAttr j)
      · rw [if_pos h, if_pos h]
        unfold Doc.clearPreservedTagOnly Doc.setTagOnly
        rw [getAttr_setAttr, getAttr_setAttr]
        by_cases h1 : m = scopedAttribName tagAttribName none l
        · rw [if_neg (fun h => scopedTag_ne_preserved none l l (h1 ▸ h.2)), if_pos ⟨rfl, h1⟩, if_pos h1]
        · rw [if_neg h1]
          simp [h1]
      · rw [if_neg h, if_neg h]
    · rw [if_neg hji]
      split
      · unfold Doc.clearPreservedTagOnly Doc.setTagOnly
        rw [getAttr_setAttr, getAttr_setAttr]
        simp [hji]
      · rfl
  · intro a
    have h1 : fn (fn (tagOr l a)) = fn (tagOr l a) := by
      rcases hfn (tagOr l a) with h | h
      · rw [h, h]
      · rw [h]; rcases hfn none with h | h <;> exact h
    funext m
    have e : mapAttrs fn l (mapAttrs fn l a) m =
        if fn (tagOr l (mapAttrs fn l a)) ≠ tagOr l (mapAttrs fn l a) then
          if m = scopedAttribName tagAttribName none l then fn (tagOr l (mapAttrs fn l a))
          else if m = scopedAttribName preservedTagAttribName none l then none
          else mapAttrs fn l a m
        else mapAttrs fn l a m := rfl
    rw [e, tagOr_mapAttrs hfn, h1]
    simp

theorem preserveTagFn_cases (inc exc : List Str) (t : Option Str) :
    preserveTagFn inc exc t = t ∨ preserveTagFn inc exc t = none := by
  unfold preserveTagFn
  simp only
  split
  · right; rfl
  · split
    · right; rfl
    · left; rfl

/-- What `_apply_preserved_fields` does with the attributes of a token. -/
def applyAttrs (fields : List Str) (a : Str → Option Str) (m : Str) : Option Str :=
  if (stripTagPrefix (tagOr none a)).any (fun t => fields.contains t) = true ∧ m = c!"tag" then tagOr none a
  else a m

theorem tagOr_applyAttrs (fields : List Str) (a : Str → Option Str) (l : Option Nat) :
    tagOr l (applyAttrs fields a) = tagOr l a := by
  by_cases h : (stripTagPrefix (tagOr none a)).any (fun t => fields.contains t) = true ∧
      scopedAttribName tagAttribName none l = c!"tag"
  · have hl : l = none ∨ l = some 0 := by
      obtain ⟨_, h⟩ := h
      have := scopedAttribName_inj (h.trans tagName_none.symm)
      revert this
      cases l with
      | none => simp
      | some n => cases n with
        | zero => simp
        | succ n => simp [normLevel]
    have e2 : applyAttrs fields a (scopedAttribName preservedTagAttribName none l) =
        a (scopedAttribName preservedTagAttribName none l) := by
      unfold applyAttrs
      rw [if_neg]
      intro x
      exact scopedTag_ne_preserved none none l (tagName_none.trans x.2.symm)
    have e1 : applyAttrs fields a (scopedAttribName tagAttribName none l) = tagOr none a := by
      unfold applyAttrs; rw [if_pos h]
    have e3 : tagOr l a = tagOr none a := by
      rcases hl with rfl | rfl <;> rfl
    rw [e3]
    unfold tagOr at e1 ⊢
    rw [e1, e2]
    have e4 : scopedAttribName preservedTagAttribName none l = scopedAttribName preservedTagAttribName none none := by
      rcases hl with rfl | rfl <;> rfl
    rw [e4]
    unfold pyOr
    split
    · rfl
    · split <;> rfl
  · have e1 : applyAttrs fields a (scopedAttribName tagAttribName none l) = a (scopedAttribName tagAttribName none l) := by
      unfold applyAttrs; rw [if_neg h]
    have e2 : applyAttrs fields a (scopedAttribName preservedTagAttribName none l) =
        a (scopedAttribName preservedTagAttribName none l) := by
      unfold applyAttrs
      rw [if_neg]
      intro x
      exact scopedTag_ne_preserved none none l (tagName_none.trans x.2.symm)
    unfold tagOr; rw [e1, e2]

theorem getAttr_applyPreservedFields (fields : List Str) (d : Doc) (j : Nat) :
    (applyPreservedFields fields d).getAttr j =
      if j ∈ d.allTokens then applyAttrs fields (d.getAttr j) else d.getAttr j := by
  unfold applyPreservedFields
  apply foldl_attr
  · intro d i j m
    have e : applyPreservedStep fields d i =
        if (stripTagPrefix (tagOr none (d.getAttr i))).any (fun t => fields.contains t) = true then
          d.setTag i (d.getTagOrPreserved i) else d := rfl
    have e2 : d.setTag i (d.getTagOrPreserved i) = d.setTagOnly i (d.getTagOrPreserved i) := by
      unfold Doc.setTag
      simp
    rw [e, e2]
    by_cases hji : j = i
    · subst hji
      rw [if_pos rfl]
      unfold applyAttrs
      by_cases hf : (stripTagPrefix (tagOr none (d.getAttr j))).any (fun t => fields.contains t) = true
      · rw [if_pos hf, getAttr_setTagOnly, tagName_none]
        by_cases hm : m = c!"tag"
        · rw [if_pos ⟨rfl, hm⟩, if_pos ⟨hf, hm⟩]; rfl
        · rw [if_neg (fun h => hm h.2), if_neg (fun h => hm h.2)]
      · rw [if_neg hf, if_neg (fun h => hf h.1)]
    · rw [if_neg hji]
      split
      · rw [getAttr_setTagOnly, if_neg (fun h => hji h.1)]
      · rfl
  · intro a
    funext m
    have e : applyAttrs fields (applyAttrs fields a) m =
        if (stripTagPrefix (tagOr none (applyAttrs fields a))).any (fun t => fields.contains t) = true ∧ m = c!"tag" then
          tagOr none (applyAttrs fields a)
        else applyAttrs fields a m := rfl
    rw [e, tagOr_applyAttrs]
    unfold applyAttrs
    split <;> rfl

end Verif
