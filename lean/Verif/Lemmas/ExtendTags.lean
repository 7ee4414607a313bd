/-
Lemmas about the prefixes of tags extended to whole lines.
-/
import Verif.Lemmas.ExtendLine

namespace Verif

/-- Neighbours in `a :: l` are related. -/
def AdjR {α : Type} (R : α → α → Prop) : α → List α → Prop
  | _, [] => True
  | a, b :: l => R a b ∧ AdjR R b l

theorem adjR_append {α : Type} (R : α → α → Prop) (a : α) (l l' : List α) :
    AdjR R a (l ++ l') ↔ AdjR R a l ∧ AdjR R (l.getLastD a) l' := by
  induction l generalizing a with
  | nil => simp [AdjR]
  | cons b l ih =>
    rw [List.cons_append, AdjR, AdjR, ih, and_assoc, List.getLastD_cons]

theorem adjR_get {α : Type} (R : α → α → Prop) (a : α) (l : List α) (h : AdjR R a l) (i : Nat) (x y : α)
    (hx : (a :: l)[i]? = some x) (hy : (a :: l)[i + 1]? = some y) : R x y := by
  induction l generalizing a i with
  | nil => simp at hy
  | cons b l ih =>
    cases i with
    | zero =>
      simp at hx hy
      subst hx; subst hy
      exact h.1
    | succ i => exact ih b h.2 i (by simpa using hx) (by simpa using hy)

theorem prefixed_proper {t : Option Str} (h : Spec.Prefixed t) : Spec.ProperTag t := by
  rcases h with rfl | ⟨v, hv, rfl | rfl⟩
  · exact properTag_none
  · exact properTag_b hv
  · exact properTag_i hv

theorem toInsideTag_prefixed {t : Option Str} (h : Spec.Prefixed t) {v : Str} (hv : stripTagPrefix t = some v) :
    toInsideTag t = some (iPrefix ++ v) := by
  rcases h with rfl | ⟨w, hw, rfl | rfl⟩
  · cases hv
  · rw [show some (c!"b-" ++ w) = some (bPrefix ++ w) from rfl] at hv ⊢
    rw [stripTagPrefix_b] at hv
    cases hv
    unfold toInsideTag
    rw [splitTagPrefix_b]
    simp only [if_true]
    exact addTagPrefix_of_truthy hw (by decide)
  · rw [show some (c!"i-" ++ w) = some (iPrefix ++ w) from rfl] at hv ⊢
    rw [stripTagPrefix_i] at hv
    cases hv
    unfold toInsideTag
    rw [splitTagPrefix_i]
    simp only []
    rw [if_neg (by decide)]

theorem mergedTags_prefixed {t : Option Str} (h : Spec.Prefixed t) (ts : List (Option Str)) {v : Str}
    (hv : stripTagPrefix t = some v) : mergedTags (t :: ts) = t :: List.replicate ts.length (some (iPrefix ++ v)) := by
  rcases h with rfl | ⟨w, hw, rfl | rfl⟩
  · cases hv
  · rw [show some (c!"b-" ++ w) = some (bPrefix ++ w) from rfl] at hv ⊢
    rw [stripTagPrefix_b] at hv
    cases hv
    unfold mergedTags
    simp only []
    rw [splitTagPrefix_b]
    simp only []
    rw [if_neg (by decide), addTagPrefix_of_truthy hw (by decide)]
  · rw [show some (c!"i-" ++ w) = some (iPrefix ++ w) from rfl] at hv ⊢
    rw [stripTagPrefix_i] at hv
    cases hv
    unfold mergedTags
    simp only []
    rw [splitTagPrefix_i]
    simp only []
    rw [if_neg (by decide), addTagPrefix_of_truthy hw (by decide)]

theorem toBeginInside_prefixed {t : Option Str} (h : Spec.Prefixed t) (n : Nat) {v : Str}
    (hv : stripTagPrefix t = some v) :
    toBeginInsideTags t (n + 1) = some (bPrefix ++ v) :: List.replicate n (some (iPrefix ++ v)) := by
  rcases h with rfl | ⟨w, hw, rfl | rfl⟩
  · cases hv
  · rw [show some (c!"b-" ++ w) = some (bPrefix ++ w) from rfl] at hv ⊢
    rw [stripTagPrefix_b] at hv
    cases hv
    unfold toBeginInsideTags
    simp only []
    rw [splitTagPrefix_b]
    simp only []
    rw [if_neg (by decide), addTagPrefix_of_truthy hw (by decide), addTagPrefix_of_truthy hw (by decide)]
  · rw [show some (c!"i-" ++ w) = some (iPrefix ++ w) from rfl] at hv ⊢
    rw [stripTagPrefix_i] at hv
    cases hv
    unfold toBeginInsideTags
    simp only []
    rw [splitTagPrefix_i]
    simp only []
    rw [if_neg (by decide), addTagPrefix_of_truthy hw (by decide), addTagPrefix_of_truthy hw (by decide)]

/-- The relation of neighbouring tags, for a configuration. -/
def LineR (cfg : ExtendCfg) : Option Str × Option Str → Option Str × Option Str → Prop :=
  Spec.FollowsOn (fun v => Spec.enabled cfg.mergeMap cfg.defaultMerge v)

theorem enabledFor_some (m : Dict Bool) (dflt : Bool) (v : Str) :
    enabledFor m dflt (some v) = true ↔ Spec.enabled m dflt v := Iff.rfl

/-- A group of tags as prepared for the loop. -/
def prepared (cfg : ExtendCfg) (g : List (Option Str)) : List (Option Str) :=
  if enabledFor cfg.mergeMap cfg.defaultMerge (stripTagPrefix g.head?.join) then mergedTags g else g

theorem uni_prepared {cfg : ExtendCfg} {v : Option Str} {g : List (Option Str)} (h : Uni v g) :
    Uni v (prepared cfg g) ∧ (prepared cfg g).length = g.length := by
  unfold prepared
  split
  · exact uni_mergedTags h
  · exact ⟨h, rfl⟩

theorem prepared_prefixed {cfg : ExtendCfg} {g : List (Option Str)} (h : ∀ t ∈ g, Spec.Prefixed t) {v : Option Str}
    (hu : Uni v g) : ∀ t ∈ prepared cfg g, Spec.Prefixed t := by
  unfold prepared
  split
  · cases g with
    | nil => exact absurd rfl hu.ne
    | cons t ts =>
      cases v with
      | none =>
        have ht : t = none := properTag_value_none.1 (hu.all t (by simp)).1
        subst ht
        exact h
      | some v =>
        have ht := (hu.all t (by simp))
        rw [mergedTags_prefixed (h t (by simp)) ts ht.1]
        intro x hx
        rcases List.mem_cons.1 hx with rfl | hx
        · exact h x (by simp)
        · exact .inr ⟨v, properTag_value_ne ht.2 ht.1, .inr (List.mem_replicate.1 hx).2⟩
  · exact h

theorem insideHead_prefixed {g : List (Option Str)} (h : ∀ t ∈ g, Spec.Prefixed t) {v : Option Str}
    (hu : Uni v g) : ∀ t ∈ insideHead g, Spec.Prefixed t := by
  cases g with
  | nil => exact absurd rfl hu.ne
  | cons t ts =>
    intro x hx
    rcases List.mem_cons.1 hx with rfl | hx
    · cases v with
      | none =>
        have ht : t = none := properTag_value_none.1 (hu.all t (by simp)).1
        subst ht
        exact .inl rfl
      | some v =>
        have ht := (hu.all t (by simp))
        exact .inr ⟨v, properTag_value_ne ht.2 ht.1, .inr (toInsideTag_prefixed (h t (by simp)) ht.1)⟩
    · exact h x (by simp [hx])

/-- Within a tagged group. -/
theorem adjR_tagged (cfg : ExtendCfg) (t : Option Str) (ts : List (Option Str)) (v : Str) (hu : Uni (some v) (t :: ts))
    (hp : ∀ x ∈ t :: ts, Spec.Prefixed x) :
    ∃ os, prepared cfg (t :: ts) = t :: os ∧ os.length = ts.length ∧
      ∀ o, stripTagPrefix o = some v → AdjR (LineR cfg) (t, o) (ts.zip os) := by
  have ht := hu.all t (by simp)
  have hne := properTag_value_ne ht.2 ht.1
  have hnn : ∀ x ∈ t :: ts, x ≠ none := by
    intro x hx h
    have := (hu.all x hx).1
    rw [h] at this
    cases this
  unfold prepared
  rw [show (t :: ts).head?.join = t from rfl, ht.1]
  by_cases he : enabledFor cfg.mergeMap cfg.defaultMerge (some v) = true
  · rw [if_pos he, mergedTags_prefixed (hp t (by simp)) ts ht.1]
    refine ⟨_, rfl, by simp, ?_⟩
    have hnn' : ∀ x ∈ ts, x ≠ none := fun x hx => hnn x (by simp [hx])
    clear hu hp hnn ht
    induction ts generalizing t with
    | nil => intro o _; trivial
    | cons x ts ih =>
      intro o ho
      rw [List.length_cons, List.replicate_succ, List.zip_cons_cons]
      refine ⟨⟨?_, ?_⟩, ih x (fun y hy => hnn' y (by simp [hy])) _ (stripTagPrefix_i v)⟩
      · intro h
        simp only [← stripTagPrefix_eq_tagValue] at h
        rw [ho, stripTagPrefix_i] at h
        exact absurd rfl h
      · intro w h1 h2
        simp only [← stripTagPrefix_eq_tagValue] at h1 h2
        rw [ho] at h1
        cases h1
        refine ⟨fun _ => rfl, fun h => absurd he h⟩
  · rw [if_neg he]
    refine ⟨_, rfl, rfl, ?_⟩
    have hval : ∀ x ∈ ts, stripTagPrefix x = some v := fun x hx => (hu.all x (by simp [hx])).1
    clear hu hp ht
    induction ts generalizing t with
    | nil => intro o _; trivial
    | cons x ts ih =>
      intro o ho
      rw [List.zip_cons_cons]
      refine ⟨⟨fun _ => rfl, ?_⟩, ih x (fun y hy => hnn y (List.mem_cons_of_mem _ hy))
        (fun y hy => hval y (by simp [hy])) x (hval x (by simp))⟩
      intro w h1 h2
      simp only [← stripTagPrefix_eq_tagValue] at h1 h2
      rw [ho] at h1
      cases h1
      refine ⟨?_, fun _ _ _ => rfl⟩
      rintro (h | h | h)
      · exact absurd h he
      · exact absurd h (hnn t (by simp))
      · exact absurd h (hnn x (by simp))

theorem getLastD_zip_replicate {a : Option Str × Option Str} (n : Nat) (o : Option Str) (hn : 0 < n) :
    ((List.replicate n (none : Option Str)).zip (List.replicate n o)).getLastD a = (none, o) := by
  rw [List.zip_replicate', List.getLastD_eq_getLast?, List.getLast?_replicate, if_neg (by omega)]
  rfl

theorem adjR_replicate {α : Type} (R : α → α → Prop) (a b : α) (n : Nat) (h : R a b) (h' : R b b) :
    AdjR R a (List.replicate n b) := by
  cases n with
  | zero => trivial
  | succ n =>
    rw [List.replicate_succ]
    refine ⟨h, ?_⟩
    induction n with
    | zero => trivial
    | succ n ih => rw [List.replicate_succ]; exact ⟨h', ih⟩

theorem lineR_none (cfg : ExtendCfg) (x : Option Str × Option Str) : LineR cfg x (none, none) := by
  refine ⟨fun _ => rfl, ?_⟩
  intro v _ h2
  cases h2

theorem lineR_inside (cfg : ExtendCfg) (x y : Option Str × Option Str) (v : Str) (h : stripTagPrefix x.2 = some v)
    (hy : y.2 = some (iPrefix ++ v)) (hn : x.1 = none ∨ y.1 = none) : LineR cfg x y := by
  refine ⟨?_, ?_⟩
  · intro h'
    rw [← stripTagPrefix_eq_tagValue, ← stripTagPrefix_eq_tagValue, h, hy, stripTagPrefix_i] at h'
    exact absurd rfl h'
  · intro w h1 h2
    rw [← stripTagPrefix_eq_tagValue, h] at h1
    cases h1
    refine ⟨fun _ => hy, fun _ a b => ?_⟩
    rcases hn with hn | hn
    · exact absurd hn a
    · exact absurd hn b

/-- Neighbouring groups have different values. -/
def Alternating : List (List (Option Str)) → Prop
  | g :: g' :: gs => stripTagPrefix g.head?.join ≠ stripTagPrefix g'.head?.join ∧ Alternating (g' :: gs)
  | _ => True

theorem Alternating.tail {g : List (Option Str)} {gs : List (List (Option Str))} (h : Alternating (g :: gs)) :
    Alternating gs := by
  cases gs with
  | nil => trivial
  | cons g' gs => exact h.2

/-- The state between two groups: the last token's tags before and after, the previous group as seen by
the loop, and whether the head of the next group becomes an inside tag. -/
inductive LoopInv (x : Option Str × Option Str) (prev : List (Option Str)) (gs : List (List (Option Str))) : Bool → Prop
  | tagged (v : Str) (hu : Uni (some v) prev) (hp : ∀ t ∈ prev, Spec.Prefixed t) (ho : stripTagPrefix x.2 = some v)
      (hn : ∀ g, gs.head? = some g → stripTagPrefix g.head?.join ≠ some v) : LoopInv x prev gs false
  | kept (ho : x.2 = none) (hn : ∀ g, gs.head? = some g → stripTagPrefix g.head?.join ≠ none) : LoopInv x prev gs false
  | last (h : gs = []) : LoopInv x prev gs false
  | filled (v : Str) (hx : x.1 = none) (ho : stripTagPrefix x.2 = some v)
      (hn : ∃ g, gs.head? = some g ∧ stripTagPrefix g.head?.join = some v) : LoopInv x prev gs true

theorem zip_getLastD_snd (t o : Option Str) (ts os : List (Option Str))
    (a : Option Str × Option Str) : (((t :: ts).zip (o :: os)).getLastD a).2 ∈ o :: os := by
  rw [List.zip_cons_cons, List.getLastD_cons]
  have : ((ts.zip os).getLastD (t, o)) ∈ (t, o) :: ts.zip os := by
    cases hz : ts.zip os with
    | nil => simp
    | cons y l =>
      rw [List.getLastD_eq_getLast?, List.getLast?_eq_some_getLast (by simp)]
      exact List.mem_cons_of_mem _ (List.getLast_mem _)
  rcases List.mem_cons.1 this with e | e
  · rw [e]; simp
  · exact List.mem_cons_of_mem _ (List.of_mem_zip (show (((ts.zip os).getLastD (t, o)).1, ((ts.zip os).getLastD (t, o)).2) ∈ _ from e)).2

/-- The part of a step for a tagged group. -/
theorem step_tagged (cfg : ExtendCfg) (g0 : List (Option Str)) (v : Str) (hu : Uni (some v) g0)
    (hp : ∀ x ∈ g0, Spec.Prefixed x) (ch : Bool) (gs : List (List (Option Str)))
    (halt : Alternating (g0 :: gs)) (g : List (Option Str))
    (hg : g = if ch = true then insideHead (prepared cfg g0) else prepared cfg g0) :
    ∃ t ts o os, g0 = t :: ts ∧ g = o :: os ∧ os.length = ts.length ∧ stripTagPrefix t = some v ∧
      (ch = false → o = t) ∧ (ch = true → o = some (iPrefix ++ v)) ∧ AdjR (LineR cfg) (t, o) (ts.zip os) ∧
      ∀ a, LoopInv ((g0.zip g).getLastD a) g gs false := by
  cases g0 with
  | nil => exact absurd rfl hu.ne
  | cons t ts =>
    obtain ⟨os, h1, h2, h3⟩ := adjR_tagged cfg t ts v hu hp
    have ht := hu.all t (by simp)
    have hup := uni_prepared (cfg := cfg) hu
    have hpp := prepared_prefixed (cfg := cfg) hp hu
    rw [h1] at hg hup hpp
    have hin := toInsideTag_prefixed (hp t (by simp)) ht.1
    have hug : Uni (some v) g := by
      rw [hg]; split
      · exact (uni_insideHead hup.1).1
      · exact hup.1
    have hpg : ∀ x ∈ g, Spec.Prefixed x := by
      rw [hg]; split
      · exact insideHead_prefixed hpp hup.1
      · exact hpp
    obtain ⟨o, ho, h4, h5, h6⟩ : ∃ o, g = o :: os ∧ (ch = false → o = t) ∧ (ch = true → o = some (iPrefix ++ v)) ∧
        stripTagPrefix o = some v := by
      cases ch with
      | false => exact ⟨t, by simpa using hg, by simp, by simp, ht.1⟩
      | true =>
        refine ⟨some (iPrefix ++ v), ?_, by simp, by simp, stripTagPrefix_i v⟩
        simp only [if_true] at hg
        rw [hg, insideHead, hin]
    refine ⟨t, ts, o, os, rfl, ho, h2, ht.1, h4, h5, h3 o h6, ?_⟩
    intro a
    refine .tagged v hug hpg ?_ ?_
    · rw [ho]
      have := zip_getLastD_snd t o ts os a
      rw [← ho] at this
      rw [← ho]
      exact (hug.all _ this).1
    · intro g' hg'
      cases gs with
      | nil => cases hg'
      | cons x gs =>
        cases hg'
        have := halt.1
        rw [hu.head.1] at this
        exact fun h => this h.symm

/-- A group of untagged tokens. -/
theorem untagged_group (cfg : ExtendCfg) (g0 : List (Option Str)) (hu : Uni none g0) (ch : Bool) :
    g0 = List.replicate g0.length none ∧ 0 < g0.length ∧
    (if ch = true then insideHead (prepared cfg g0) else prepared cfg g0) = g0 := by
  have hall : ∀ t ∈ g0, t = none := fun t ht => properTag_value_none.1 (hu.all t ht).1
  have hlen : 0 < g0.length := List.length_pos_iff.2 hu.ne
  refine ⟨List.eq_replicate_iff.2 ⟨rfl, hall⟩, hlen, ?_⟩
  have hprep : prepared cfg g0 = g0 := by
    unfold prepared
    split
    · cases g0 with
      | nil => rfl
      | cons t ts =>
        have : t = none := hall t (by simp)
        subst this
        rfl
    · rfl
  rw [hprep]
  split
  · cases g0 with
    | nil => rfl
    | cons t ts =>
      have : t = none := hall t (by simp)
      subst this
      rfl
  · rfl

theorem kept_inv (cfg : ExtendCfg) (g0 : List (Option Str)) (gs : List (List (Option Str))) (hu : Uni none g0)
    (halt : Alternating (g0 :: gs)) (a : Option Str × Option Str) :
    LoopInv ((g0.zip g0).getLastD a) g0 gs false := by
  obtain ⟨h1, h2, _⟩ := untagged_group cfg g0 hu false
  refine .kept ?_ ?_
  · rw [h1, getLastD_zip_replicate _ _ (by simpa using h2)]
  · intro g' hg'
    cases gs with
    | nil => cases hg'
    | cons x gs =>
      cases hg'
      have := halt.1
      rw [hu.head.1] at this
      exact fun h => this h.symm

theorem adjR_kept (cfg : ExtendCfg) (g0 : List (Option Str)) (hu : Uni none g0) (a : Option Str × Option Str) :
    AdjR (LineR cfg) a (g0.zip g0) := by
  obtain ⟨h1, _, _⟩ := untagged_group cfg g0 hu false
  rw [h1, List.zip_replicate']
  exact adjR_replicate _ _ _ _ (lineR_none cfg _) (lineR_none cfg _)

theorem prepared_head {cfg : ExtendCfg} {g : List (Option Str)} : (prepared cfg g).head? = g.head? := by
  unfold prepared
  split
  · cases g with
    | nil => rfl
    | cons t ts =>
      unfold mergedTags
      simp only []
      split <;> rfl
  · rfl

theorem extendLoop_chain (cfg : ExtendCfg) (gs : List (List (Option Str)))
    (hu : ∀ g ∈ gs, ∃ v, Uni v g) (hp : ∀ g ∈ gs, ∀ t ∈ g, Spec.Prefixed t) (halt : Alternating gs)
    (x : Option Str × Option Str) (prev : List (Option Str)) (ch : Bool) (hinv : LoopInv x prev gs ch) :
    AdjR (LineR cfg) x (gs.flatten.zip (extendLoop cfg (some prev) ch (gs.map (prepared cfg)))) := by
  induction gs generalizing x prev ch with
  | nil => trivial
  | cons g0 gs ih =>
    have ih' := fun x prev ch => ih (fun g hg => hu g (by simp [hg])) (fun g hg => hp g (by simp [hg])) halt.tail x prev ch
    obtain ⟨v0, hu0⟩ := hu g0 (by simp)
    have hp0 := hp g0 (by simp)
    rw [List.map_cons, List.flatten_cons]
    unfold extendLoop
    simp only []
    generalize hg : (if ch = true then insideHead (prepared cfg g0) else prepared cfg g0) = g
    cases v0 with
    | some v =>
      obtain ⟨t, ts, o, os, hg0, hgo, hlen, htv, hoF, hoT, hadj, hnext⟩ := step_tagged cfg g0 v hu0 hp0 ch gs halt g hg.symm
      have hug : stripTagPrefix o = some v := by
        cases ch with
        | false => rw [hoF rfl]; exact htv
        | true => rw [hoT rfl]; exact stripTagPrefix_i v
      have htr : truthy g.head?.join = true := by
        rw [hgo, List.head?_cons, Option.join_some]
        cases ch with
        | false => rw [hoF rfl]; exact (truthy_properTag (hu0.all t (by rw [hg0]; simp)).2).2 (by rw [htv]; simp)
        | true => rw [hoT rfl, truthy_some]; simp [iPrefix]
      rw [if_pos htr, List.zip_append (by rw [hg0, hgo]; simp [hlen]), adjR_append]
      refine ⟨?_, ih' _ _ _ (hnext x)⟩
      rw [hg0, hgo, List.zip_cons_cons]
      refine ⟨?_, hadj⟩
      cases hinv with
      | tagged w _ _ ho hn =>
        have hvw := hn g0 rfl
        rw [hu0.head.1] at hvw
        refine ⟨fun _ => hoF rfl, ?_⟩
        intro u h1 h2
        simp only [← stripTagPrefix_eq_tagValue] at h1 h2
        rw [ho] at h1
        rw [hug] at h2
        cases h1; cases h2
        exact absurd rfl hvw
      | kept ho hn =>
        refine ⟨fun _ => hoF rfl, ?_⟩
        intro u h1 h2
        rw [ho] at h1
        cases h1
      | last h => cases h
      | filled w hx ho hn =>
        obtain ⟨g', e, h⟩ := hn
        cases e
        rw [hu0.head.1] at h
        cases h
        exact lineR_inside cfg _ _ v ho (hoT rfl) (.inl hx)
    | none =>
      obtain ⟨hrep, hlen, hsame⟩ := untagged_group cfg g0 hu0 ch
      rw [hsame] at hg
      subst hg
      have htr : ¬ truthy g0.head?.join = true := by
        rw [hrep, List.head?_replicate, if_neg (by omega)]
        simp
      rw [if_neg htr]
      have hkeep : AdjR (LineR cfg) x ((g0 ++ gs.flatten).zip (g0 ++ extendLoop cfg (some g0) false (gs.map (prepared cfg)))) := by
        rw [List.zip_append rfl, adjR_append]
        exact ⟨adjR_kept cfg g0 hu0 x, ih' _ _ _ (kept_inv cfg g0 gs hu0 halt x)⟩
      cases hinv with
      | kept ho hn => exact absurd hu0.head.1 (hn g0 rfl)
      | last h => cases h
      | filled w hx ho hn =>
        obtain ⟨g', e, h⟩ := hn
        cases e
        rw [hu0.head.1] at h
        cases h
      | tagged w huP hpP ho hn =>
        have hlast : ((some prev).bind List.getLast?).join = prev.getLast?.join := rfl
        have hin : toInsideTag prev.getLast?.join = some (iPrefix ++ w) := by
          apply toInsideTag_prefixed _ huP.last.1
          rw [List.getLast?_eq_some_getLast huP.ne]
          exact hpP _ (List.getLast_mem huP.ne)
        have hfill (b : Bool) (hi : LoopInv (none, some (iPrefix ++ w)) g0 gs b) :
            AdjR (LineR cfg) x ((g0 ++ gs.flatten).zip
              (List.replicate g0.length (toInsideTag prev.getLast?.join) ++ extendLoop cfg (some g0) b (gs.map (prepared cfg)))) := by
          rw [hin, List.zip_append (by simp), adjR_append]
          have hz : g0.zip (List.replicate g0.length (some (iPrefix ++ w))) =
              (List.replicate g0.length none).zip (List.replicate g0.length (some (iPrefix ++ w))) := by rw [← hrep]
          rw [hz]
          refine ⟨?_, ?_⟩
          · rw [List.zip_replicate']
            exact adjR_replicate _ _ _ _ (lineR_inside cfg _ _ w ho rfl (.inr rfl))
              (lineR_inside cfg _ _ w (stripTagPrefix_i w) rfl (.inr rfl))
          · rw [getLastD_zip_replicate _ _ hlen]
            exact ih' _ _ _ hi
        rw [hlast, huP.last.1]
        cases gs with
        | nil =>
          simp only [List.map_nil, List.head?_nil]
          split
          · exact hkeep
          · split
            · exact hfill false (.last rfl)
            · exact hkeep
        | cons n gs =>
          simp only [List.map_cons, List.head?_cons]
          split
          · next hc =>
            refine hfill true (.filled w rfl (stripTagPrefix_i w) ⟨n, rfl, ?_⟩)
            rw [hc.1]
            simp only [Option.bind_some]
            rw [prepared_head]
          · exact hkeep

theorem groupBy_alternating (tags : List (Option Str)) :
    Alternating ((groupBy stripTagPrefix tags).map Prod.snd) := by
  induction tags with
  | nil => trivial
  | cons a l ih =>
    have hu := groupBy_uniform stripTagPrefix l
    rw [groupBy]
    cases hg : groupBy stripTagPrefix l with
    | nil => trivial
    | cons x gs =>
      obtain ⟨k, g⟩ := x
      rw [hg] at ih hu
      have hk := hu (k, g) (by simp)
      have hhead : stripTagPrefix g.head?.join = k := by
        cases g with
        | nil => exact absurd rfl hk.1
        | cons y g => exact (hk.2 y (by simp)).1
      simp only []
      split
      · next he =>
        cases gs with
        | nil => trivial
        | cons y gs =>
          refine ⟨?_, ih.2⟩
          have := ih.1
          simp only [] at this
          rw [hhead] at this
          simp only [List.head?_cons, Option.join_some]
          rw [he]
          exact this
      · next he =>
        refine ⟨?_, ih⟩
        simp only [List.head?_cons, Option.join_some]
        rw [hhead]
        exact he

/-- The tags before and after of a line. -/
def Chained (cfg : ExtendCfg) : List (Option Str × Option Str) → Prop
  | [] => True
  | x :: l => AdjR (LineR cfg) x l ∧ (x.1 ≠ none → x.2 = x.1) ∧
      (x.1 = none → ∀ v, stripTagPrefix x.2 = some v → x.2 = some (bPrefix ++ v))

theorem extended_chain (cfg : ExtendCfg) (tags : List (Option Str)) (hp : ∀ t ∈ tags, Spec.Prefixed t) :
    Chained cfg (tags.zip (extendedLineTags cfg tags)) := by
  have hgs := groupBy_uniform stripTagPrefix tags
  have halt := groupBy_alternating tags
  have hfl := groupBy_flatten stripTagPrefix tags
  have he : extendedLineTags cfg tags =
      extendLoop cfg none false (((groupBy stripTagPrefix tags).map Prod.snd).map (prepared cfg)) := by
    unfold extendedLineTags
    simp only []
    rw [List.map_map]
    rfl
  rw [he]
  have hu : ∀ g ∈ (groupBy stripTagPrefix tags).map Prod.snd, ∃ v, Uni v g := by
    intro g hg
    obtain ⟨kg, hkg, rfl⟩ := List.mem_map.1 hg
    have := hgs kg hkg
    exact ⟨kg.1, this.1, fun t ht => ⟨(this.2 t ht).1, prefixed_proper (hp t (this.2 t ht).2)⟩⟩
  have hpp : ∀ g ∈ (groupBy stripTagPrefix tags).map Prod.snd, ∀ t ∈ g, Spec.Prefixed t := by
    intro g hg t ht
    obtain ⟨kg, hkg, rfl⟩ := List.mem_map.1 hg
    exact hp t ((hgs kg hkg).2 t ht).2
  generalize (groupBy stripTagPrefix tags).map Prod.snd = gs at *
  subst hfl
  cases gs with
  | nil => trivial
  | cons g0 gs =>
    obtain ⟨v0, hu0⟩ := hu g0 (by simp)
    have hp0 := hpp g0 (by simp)
    have ih' := fun x prev ch => extendLoop_chain cfg gs (fun g hg => hu g (by simp [hg]))
      (fun g hg => hpp g (by simp [hg])) halt.tail x prev ch
    rw [List.map_cons, List.flatten_cons]
    unfold extendLoop
    simp only [Bool.false_eq_true, if_false]
    cases v0 with
    | some v =>
      obtain ⟨t, ts, o, os, hg0, hgo, hlen, htv, hoF, _, hadj, hnext⟩ :=
        step_tagged cfg g0 v hu0 hp0 false gs halt (prepared cfg g0) rfl
      have htr : truthy (prepared cfg g0).head?.join = true := by
        rw [hgo, List.head?_cons, Option.join_some, hoF rfl]
        exact (truthy_properTag (hu0.all t (by rw [hg0]; simp)).2).2 (by rw [htv]; simp)
      rw [if_pos htr, List.zip_append (by rw [hgo, hg0]; simp [hlen])]
      have hnx := hnext (t, o)
      have hz : g0.zip (prepared cfg g0) = (t, o) :: ts.zip os := by rw [hgo, hg0]; rfl
      rw [hz] at hnx ⊢
      rw [List.cons_append]
      refine ⟨?_, fun _ => hoF rfl, ?_⟩
      · rw [adjR_append]
        refine ⟨hadj, ?_⟩
        rw [List.getLastD_cons] at hnx
        exact ih' _ _ _ hnx
      · rintro rfl
        cases htv
    | none =>
      obtain ⟨hrep, hlen, hsame⟩ := untagged_group cfg g0 hu0 false
      simp only [Bool.false_eq_true, if_false] at hsame
      rw [hsame]
      have htr : ¬ truthy g0.head?.join = true := by
        rw [hrep, List.head?_replicate, if_neg (by omega)]
        simp
      rw [if_neg htr]
      obtain ⟨n, hn⟩ : ∃ n, g0.length = n + 1 := ⟨g0.length - 1, by omega⟩
      rw [hn] at hrep
      have hkeep : Chained cfg ((g0 ++ gs.flatten).zip (g0 ++ extendLoop cfg (some g0) false (gs.map (prepared cfg)))) := by
        have hi := kept_inv cfg g0 gs hu0 halt (none, none)
        have ha := ih' _ _ _ hi
        rw [List.zip_append rfl]
        rw [show g0.zip g0 = (none, none) :: List.replicate n (none, none) by
          rw [hrep, List.zip_replicate', List.replicate_succ]] at ha ⊢
        rw [List.cons_append]
        refine ⟨?_, by simp, by intro _ v hv; cases hv⟩
        rw [adjR_append]
        rw [List.getLastD_cons] at ha
        exact ⟨adjR_replicate _ _ _ _ (lineR_none cfg _) (lineR_none cfg _), ha⟩
      cases gs with
      | nil => exact hkeep
      | cons g1 gs =>
        obtain ⟨v1, hu1⟩ := hu g1 (by simp)
        simp only [List.map_cons, List.head?_cons, Option.bind_some, prepared_head]
        split
        · exact hkeep
        · split
          · have hv1 : ∃ v, v1 = some v := by
              cases v1 with
              | none =>
                have := halt.1
                rw [hu0.head.1, hu1.head.1] at this
                exact absurd rfl this
              | some v => exact ⟨v, rfl⟩
            obtain ⟨v, rfl⟩ := hv1
            have hph : Spec.Prefixed g1.head?.join := by
              cases g1 with
              | nil => exact absurd rfl hu1.ne
              | cons y g1 => exact hpp (y :: g1) (by simp) y (by simp)
            rw [hn, toBeginInside_prefixed hph n hu1.head.1]
            rw [List.zip_append (by rw [hrep]; simp)]
            have hz : g0.zip (some (bPrefix ++ v) :: List.replicate n (some (iPrefix ++ v))) =
                (none, some (bPrefix ++ v)) :: (List.replicate n none).zip (List.replicate n (some (iPrefix ++ v))) := by
              rw [hrep, List.replicate_succ, List.zip_cons_cons]
            rw [hz, List.cons_append]
            refine ⟨?_, by simp, ?_⟩
            · rw [adjR_append]
              refine ⟨?_, ?_⟩
              · rw [List.zip_replicate']
                exact adjR_replicate _ _ _ _ (lineR_inside cfg _ _ v (stripTagPrefix_b v) rfl (.inl rfl))
                  (lineR_inside cfg _ _ v (stripTagPrefix_i v) rfl (.inl rfl))
              · apply ih'
                cases n with
                | zero =>
                  exact .filled v rfl (stripTagPrefix_b v) ⟨g1, rfl, hu1.head.1⟩
                | succ n =>
                  rw [getLastD_zip_replicate _ _ (by omega)]
                  exact .filled v rfl (stripTagPrefix_i v) ⟨g1, rfl, hu1.head.1⟩
            · intro _ w hw
              rw [stripTagPrefix_b] at hw
              cases hw
              rfl
          · exact hkeep

/-! ### Tags that remain within a class -/

theorem extendLoop_forall (cfg : ExtendCfg) (P : Option Str → Prop) (h0 : P none) (hin : ∀ t, P t → P (toInsideTag t))
    (hbe : ∀ t, P t → ∀ n, ∀ x ∈ toBeginInsideTags t n, P x) (gs : List (List (Option Str)))
    (prev : Option (List (Option Str))) (ch : Bool) (hprev : ∀ p, prev = some p → ∀ t ∈ p, P t)
    (hgs : ∀ g ∈ gs, ∀ t ∈ g, P t) : ∀ t ∈ extendLoop cfg prev ch gs, P t := by
  induction gs generalizing prev ch with
  | nil => intro t ht; cases ht
  | cons g0 gs ih =>
    unfold extendLoop
    simp only []
    generalize hg : (if ch = true then insideHead g0 else g0) = g
    have hgP : ∀ t ∈ g, P t := by
      rw [← hg]
      split
      · cases g0 with
        | nil => intro t ht; cases ht
        | cons a l =>
          intro t ht
          rcases List.mem_cons.1 ht with rfl | ht
          · exact hin _ (hgs (a :: l) (by simp) a (by simp))
          · exact hgs (a :: l) (by simp) t (by simp [ht])
      · exact hgs g0 (by simp)
    have ih' (b : Bool) := ih (some g) b (by rintro p h; cases h; exact hgP) (fun g hg => hgs g (by simp [hg]))
    have hlast : P ((prev.bind List.getLast?).join) := by
      cases prev with
      | none => exact h0
      | some p =>
        show P p.getLast?.join
        cases hl : p.getLast? with
        | none => exact h0
        | some t => exact hprev p rfl t (List.mem_of_getLast? hl)
    have hnext : P ((gs.head?.bind List.head?).join) := by
      cases gs with
      | nil => exact h0
      | cons n gs =>
        show P n.head?.join
        cases hl : n.head? with
        | none => exact h0
        | some t => exact hgs n (by simp) t (List.mem_of_head? hl)
    have keep (b : Bool) : ∀ t ∈ g ++ extendLoop cfg (some g) b gs, P t := by
      intro t ht
      rcases List.mem_append.1 ht with h | h
      · exact hgP t h
      · exact ih' b t h
    have inside (b : Bool) : ∀ t ∈ List.replicate g.length (toInsideTag (prev.bind List.getLast?).join) ++
        extendLoop cfg (some g) b gs, P t := by
      intro t ht
      rcases List.mem_append.1 ht with h | h
      · rw [(List.mem_replicate.1 h).2]; exact hin _ hlast
      · exact ih' b t h
    have begins (b : Bool) : ∀ t ∈ toBeginInsideTags (gs.head?.bind List.head?).join g.length ++
        extendLoop cfg (some g) b gs, P t := by
      intro t ht
      rcases List.mem_append.1 ht with h | h
      · exact hbe _ hnext _ t h
      · exact ih' b t h
    split
    · exact keep _
    · split
      · split
        · exact inside _
        · exact keep _
      · split
        · exact keep _
        · split
          · exact inside _
          · exact keep _
      · split
        · exact keep _
        · split
          · exact begins _
          · exact keep _
      · exact keep _

theorem extended_forall (cfg : ExtendCfg) (P : Option Str → Prop) (tags : List (Option Str)) (hP : ∀ t ∈ tags, P t)
    (h0 : P none) (hin : ∀ t, P t → P (toInsideTag t)) (hbe : ∀ t, P t → ∀ n, ∀ x ∈ toBeginInsideTags t n, P x)
    (hme : ∀ g, (∀ t ∈ g, P t) → ∀ t ∈ mergedTags g, P t) : ∀ t ∈ extendedLineTags cfg tags, P t := by
  unfold extendedLineTags
  simp only []
  apply extendLoop_forall cfg P h0 hin hbe
  · intro p h; cases h
  · intro g hg
    obtain ⟨kg, hkg, rfl⟩ := List.mem_map.1 hg
    have : ∀ t ∈ kg.2, P t := fun t ht => hP t ((groupBy_uniform _ _ kg hkg).2 t ht).2
    split
    · exact hme _ this
    · exact this

theorem splitTagPrefix_plain {t : Option Str} (h : Spec.tagValue t = t) : splitTagPrefix t = (none, t) := by
  rcases splitTagPrefix_cases t with ⟨v, rfl, h'⟩ | ⟨v, rfl, h'⟩ | ⟨_, _, h'⟩
  · have := congrArg (fun o => (o.map List.length).getD 0) h
    simp [Spec.tagValue, bPrefix] at this
    omega
  · have := congrArg (fun o => (o.map List.length).getD 0) h
    simp [Spec.tagValue, iPrefix] at this
    omega
  · exact h'

theorem toInsideTag_plain {t : Option Str} (h : Spec.tagValue t = t) : toInsideTag t = t := by
  unfold toInsideTag
  rw [splitTagPrefix_plain h]
  simp

theorem toBeginInside_plain {t : Option Str} (h : Spec.tagValue t = t) (n : Nat) :
    toBeginInsideTags t n = List.replicate n t := by
  cases n with
  | zero => rfl
  | succ n => unfold toBeginInsideTags; rw [splitTagPrefix_plain h]; simp

theorem mergedTags_plain {g : List (Option Str)} (h : ∀ t ∈ g, Spec.tagValue t = t) : mergedTags g = g := by
  cases g with
  | nil => rfl
  | cons t ts => unfold mergedTags; simp only []; rw [splitTagPrefix_plain (h t (by simp))]; simp

end Verif
