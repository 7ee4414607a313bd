/-
Lemmas about sub tags of references which stay as they are.
-/
import Verif.Lemmas.RefDoc
import Verif.Lemmas.ExtendTags

namespace Verif

/-- Text before a value is not searched for: the tag stays. -/
def StaysUnless (enabled : Str → Prop) (t t' : Option Str) : Prop := ∀ v, Spec.tagValue t = some v → ¬ enabled v → t' = t

theorem pw_vacuous {α β : Type} {P : α → β → Prop} {l : List α} {l' : List β} (hl : l'.length = l.length) (h : ∀ a ∈ l, ∀ b, P a b) : Pw P l l' :=
  ⟨hl, fun _ a b ha _ => h a (List.mem_of_getElem? ha) b⟩

theorem prefixLoop_stays (env : RefEnv) (regex : Dict Str) (enabled : List Str) (gs : List (List RefTok)) (hg : RefGroups gs)
    (changed : Bool) (hc : changed = true → ∃ v ∈ enabled, Spec.tagValue (firstRefTag gs.head?) = some v)
    (out : List (Option Str)) (h : prefixLoop env regex enabled changed gs = .ok out) :
    Pw (fun x t => StaysUnless (· ∈ enabled) x.1 t) gs.flatten out := by
  induction gs generalizing changed out with
  | nil => cases h; exact Pw.nil _
  | cons g gs ih =>
    obtain ⟨⟨x, xs, v, he, hv⟩, hgs⟩ := hg.cons
    rw [prefixLoop_cons _ _ _ _ _ _ (fun y hy => (hv y hy).2)] at h
    cases hn : prefixCount env regex enabled g (firstRefTag gs.head?) with
    | error e => rw [hn] at h; cases h
    | ok n =>
      rw [hn] at h
      simp only [] at h
      cases hr : prefixLoop env regex enabled (decide (n ≠ 0)) gs with
      | error e => rw [hr] at h; cases h
      | ok o =>
        rw [hr] at h
        cases h
        have hne : g ≠ [] := by rw [he]; simp
        obtain ⟨hle, hpos⟩ := prefixCount_le hne hn
        rw [List.flatten_cons]
        refine Pw.append ?_ (ih hgs _ (fun hd => ?_) _ hr)
        · have hlen := (prefixGroup_rel env regex enabled changed g hne v hv _ (properTag_next hgs) n hn).1
          by_cases h0 : n = 0
          · cases changed with
            | false =>
              unfold prefixGroup
              simp only [h0, if_true, Bool.false_eq_true, if_false]
              refine ⟨by simp, ?_⟩
              intro i a b ha hb
              rw [List.getElem?_map, ha] at hb
              cases hb
              exact fun _ _ _ => rfl
            | true =>
              obtain ⟨w, hw, e⟩ := hc rfl
              refine pw_vacuous hlen fun a ha b u hu hnu => ?_
              exfalso
              apply hnu
              have e' : Spec.tagValue x.1 = some w := by rw [he] at e; exact e
              have h1 := (hv a ha).1
              have h2 := (hv x (by rw [he]; simp)).1
              rw [hu, ← h2, e'] at h1
              rw [Option.some.inj h1]
              exact hw
          · refine pw_vacuous hlen fun a ha b u hu _ => ?_
            exfalso
            obtain ⟨hf, _⟩ := hpos h0
            have hx0 := hv x (by rw [he]; simp)
            have hxn : x.1 = none := (truthy_eq_false_iff hx0.2).1 (by rw [he] at hf; simpa using hf)
            have h1 := (hv a ha).1
            rw [hu, ← hx0.1, hxn] at h1
            cases h1
        · obtain ⟨_, w, hw, hm⟩ := hpos (by simpa using hd)
          rw [stripTagPrefix_eq_tagValue] at hw
          exact ⟨w, hm, hw⟩

theorem prefixExtended_stays {env : RefEnv} {regex : Dict Str} {enabled : List Str} {toks : List RefTok} {out : List (Option Str)}
    (hp : ∀ x ∈ toks, Spec.ProperTag x.1) (h : prefixExtended env regex enabled toks = .ok out) :
    Pw (fun x t => StaysUnless (· ∈ enabled) x.1 t) toks out := by
  have := prefixLoop_stays env regex enabled _ (refGroups_groupBy toks hp) false (fun h => by cases h) out h
  rw [groupBy_flatten] at this
  exact this

/-! ### Merging -/

theorem extendLoop_stays (cfg : ExtendCfg) (hx : ∀ v, enabledFor cfg.extendMap cfg.defaultExtend v = false)
    (gs : List (List (Option Str))) (hg : ∀ g ∈ gs, ∃ v, Uni v g) (prev : Option (List (Option Str))) (changed : Bool)
    (hc : changed = true → enabledFor cfg.mergeMap cfg.defaultMerge (stripTagPrefix (gs.head?.bind List.head?).join) = true) :
    Pw (StaysUnless (fun v => enabledFor cfg.mergeMap cfg.defaultMerge (some v) = true)) gs.flatten (extendLoop cfg prev changed gs) := by
  induction gs generalizing prev changed with
  | nil => exact Pw.nil _
  | cons g0 gs ih =>
    obtain ⟨v, hne, hv⟩ := hg g0 (by simp)
    have hgs : ∀ g ∈ gs, ∃ v, Uni v g := fun g hg' => hg g (List.mem_cons_of_mem _ hg')
    have hkeep : Pw (StaysUnless (fun v => enabledFor cfg.mergeMap cfg.defaultMerge (some v) = true)) g0
        (if changed = true then insideHead g0 else g0) := by
      cases changed with
      | false => exact Pw.refl _ (fun _ _ _ _ _ => rfl)
      | true =>
        refine pw_vacuous (by simp [insideHead_length]) fun a ha b u hu hnu => ?_
        exfalso
        apply hnu
        have e := hc rfl
        cases g0 with
        | nil => exact absurd rfl hne
        | cons t ts =>
          have e' : enabledFor cfg.mergeMap cfg.defaultMerge (stripTagPrefix t) = true := e
          rw [(hv t (by simp)).1, ← (hv a ha).1, stripTagPrefix_eq_tagValue, hu] at e'
          exact e'
    have hlen : (if changed = true then insideHead g0 else g0).length = g0.length := hkeep.1
    have hhead : truthy (if changed = true then insideHead g0 else g0).head?.join = truthy g0.head?.join := by
      split
      · exact insideHead_head g0 (fun a ha => (hv a ha).2)
      · rfl
    unfold extendLoop
    simp only [hx, Bool.not_false, if_true]
    have hno := fun (p : Option (List (Option Str))) => ih hgs p false (fun h => by cases h)
    rw [List.flatten_cons]
    generalize (if changed = true then insideHead g0 else g0) = g at hkeep hlen hhead ⊢
    rw [hhead]
    split
    · exact hkeep.append (hno _)
    · next hnt =>
      have hun : ∀ a ∈ g0, a = none := by
        cases g0 with
        | nil => exact absurd rfl hne
        | cons t ts =>
          have h0 : truthy t = false := by simpa using hnt
          have hxn : t = none := (truthy_eq_false_iff (hv t (by simp)).2).1 h0
          intro a ha
          have h1 := (hv a ha).1
          rw [← (hv t (by simp)).1, hxn, stripTagPrefix_eq_tagValue] at h1
          exact tagValue_none_iff.1 h1
      have hvac : ∀ (l : List (Option Str)), l.length = g0.length →
          Pw (StaysUnless (fun v => enabledFor cfg.mergeMap cfg.defaultMerge (some v) = true)) g0 l := by
        intro l hl
        refine pw_vacuous hl fun a ha b u hu _ => ?_
        rw [hun a ha] at hu
        cases hu
      split
      · split
        · next hm =>
          refine (hvac _ (by rw [List.length_replicate, hlen])).append (ih hgs _ true (fun _ => ?_))
          rw [← hm.1]
          exact hm.2
        · exact hkeep.append (hno _)
      · exact hkeep.append (hno _)
      · exact hkeep.append (hno _)
      · exact hkeep.append (hno _)

/-- Merging changes no tags but those of values which are to be merged. -/
theorem extended_stays (cfg : ExtendCfg) (hx : ∀ v, enabledFor cfg.extendMap cfg.defaultExtend v = false) (tags : List (Option Str))
    (hp : ∀ t ∈ tags, Spec.ProperTag t) :
    Pw (StaysUnless (fun v => enabledFor cfg.mergeMap cfg.defaultMerge (some v) = true)) tags (extendedLineTags cfg tags) := by
  have hu : ∀ kg ∈ groupBy stripTagPrefix tags, Uni kg.1 kg.2 := by
    intro kg h
    have := groupBy_uniform stripTagPrefix tags kg h
    exact ⟨this.1, fun t ht => ⟨(this.2 t ht).1, hp t (this.2 t ht).2⟩⟩
  unfold extendedLineTags
  simp only []
  have h1 : Pw (StaysUnless (fun v => enabledFor cfg.mergeMap cfg.defaultMerge (some v) = true)) tags
      ((groupBy stripTagPrefix tags).map (fun kg =>
        if enabledFor cfg.mergeMap cfg.defaultMerge (stripTagPrefix kg.2.head?.join) then mergedTags kg.2 else kg.2)).flatten := by
    conv => arg 2; rw [← groupBy_flatten stripTagPrefix tags]
    generalize groupBy stripTagPrefix tags = gs at hu
    induction gs with
    | nil => exact Pw.nil _
    | cons kg gs ih =>
      rw [List.map_cons, List.map_cons, List.flatten_cons, List.flatten_cons]
      refine Pw.append ?_ (ih (fun k hk => hu k (List.mem_cons_of_mem _ hk)))
      have hk := hu kg (by simp)
      split
      · next he =>
        refine pw_vacuous (uni_mergedTags hk).2 fun a ha b u hu' hnu => ?_
        exfalso
        apply hnu
        obtain ⟨hne, hall⟩ := hk
        cases hg : kg.2 with
        | nil => exact absurd hg hne
        | cons t ts =>
          rw [hg] at he
          have e' : enabledFor cfg.mergeMap cfg.defaultMerge (stripTagPrefix t) = true := he
          rw [(hall t (by rw [hg]; simp)).1, ← (hall a ha).1, stripTagPrefix_eq_tagValue, hu'] at e'
          exact e'
      · exact Pw.refl _ (fun _ _ _ _ _ => rfl)
  refine h1.comp (extendLoop_stays cfg hx _ ?_ none false (fun h => by cases h)) ?_
  · intro g hg
    obtain ⟨kg, hkg, rfl⟩ := List.mem_map.1 hg
    have hk := hu kg hkg
    split
    · exact ⟨_, (uni_mergedTags hk).1⟩
    · exact ⟨_, hk⟩
  · intro t y z a b v hv hnv
    have e := a v hv hnv
    rw [e] at b
    exact b v hv hnv

end Verif
