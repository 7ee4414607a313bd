/-
Lemmas about telling labels apart by their paths, with further fields.
-/
import Verif.Lemmas.SetOrder
import Verif.Props.Reload
import Verif.Props.TagExpression
import Verif.Spec.ReloadFields

namespace Verif
open Spec

/-- A path a token with the main tag `v` and one of the sub tags may have. -/
def Cand (mapping : Dict Str) (subs : Option Str → Prop) (v : Option Str) (p : List Str) : Prop :=
  p = tagRequiredPath mapping v ∨ ∃ s, subs s ∧ tagRequiredPath mapping s = p ∧ tagRequiredPath mapping v <+: p

/-- The main tags with the sub tags can be told apart by the paths. -/
structure TellsApart (mapping : Dict Str) (mains subs : Option Str → Prop) : Prop where
  cand : ∀ v, mains v → ∀ p, Cand mapping subs v p → (∀ f ∈ p, Stable f) ∧
    (tagRequiredPath mapping v = [] → p = []) ∧
    (joinWith c!"/" (tagRequiredPath mapping v) ∈ mapping.map (·.2) ∨ p = tagRequiredPath mapping v)
  outermost : ∀ v, mains v → ∀ k, 0 < k → k < (tagRequiredPath mapping v).length →
    joinWith c!"/" ((tagRequiredPath mapping v).take k) ∉ mapping.map (·.2) ∧
    ∀ u, mains u → ∀ p, Cand mapping subs u p → p ≠ (tagRequiredPath mapping v).take k
  owner : ∀ v, mains v → tagRequiredPath mapping v ≠ [] →
    tagOfPath mapping (joinWith c!"/" (tagRequiredPath mapping v)) = v.getD []

theorem cand_iff {mapping : Dict Str} {subs : List (Option Str)} {v : Option Str} {p : List Str} :
    Cand mapping (fun s => s ∈ subs) v p ↔ p ∈ candidates mapping subs v := by
  unfold Cand candidates
  rw [List.mem_cons, List.mem_filter, List.mem_map]
  constructor
  · rintro (h | ⟨s, h1, h2, h3⟩)
    · exact .inl h
    · exact .inr ⟨⟨s, h1, h2⟩, List.isPrefixOf_iff_prefix.2 h3⟩
  · rintro (h | ⟨⟨s, h1, h2⟩, h3⟩)
    · exact .inl h
    · exact .inr ⟨s, h1, h2, List.isPrefixOf_iff_prefix.1 h3⟩

theorem tellsApart_of_distinctB {mapping : Dict Str} {mains subs : List (Option Str)}
    (h : distinctB mapping mains subs = true) : TellsApart mapping (fun v => v ∈ mains) (fun s => s ∈ subs) := by
  unfold distinctB at h
  rw [List.all_eq_true] at h
  have hv := fun v (hv : v ∈ mains) => by
    have := h v hv
    simp only [Bool.and_eq_true, List.all_eq_true] at this
    exact this
  refine ⟨fun v hm p hp => ?_, fun v hm k hk1 hk2 => ?_, fun v hm hne => ?_⟩
  · have b := (hv v hm).1.1 p (cand_iff.1 hp)
    simp only [Bool.or_eq_true, decide_eq_true_eq] at b
    obtain ⟨⟨b1, b2⟩, b3⟩ := b
    refine ⟨fun f hf => stable_of_stableB (b1 f hf), fun hn => ?_, b3⟩
    rcases b2 with b2 | b2
    · rw [hn] at b2; simp at b2
    · exact List.isEmpty_iff.1 b2
  · have c := (hv v hm).1.2 k (List.mem_range.2 hk2)
    simp only [Bool.and_eq_true, Bool.or_eq_true, List.all_eq_true, decide_eq_true_eq] at c
    rcases c with c | c
    · omega
    · exact ⟨c.1, fun u hu p hp => c.2 u hu p (cand_iff.1 hp)⟩
  · have a := (hv v hm).2
    rw [Bool.or_eq_true] at a
    rcases a with a | a
    · exact absurd (List.isEmpty_iff.1 a) hne
    · exact of_decide_eq_true a

theorem tokenPath_cand {mapping : Dict Str} {subs : Option Str → Prop} {t : Tok} (h : subs (subValue t)) :
    Cand mapping subs (mainValue t) (tokenPath mapping t) := by
  unfold tokenPath
  split
  · next hs =>
    refine .inr ⟨_, h, (subPath_value mapping t).symm, ?_⟩
    rw [← mainPath_value]
    exact hs.2.2
  · exact .inl (mainPath_value mapping t)

theorem distinct_of_tellsApart {cc : CharClass} {mapping : Dict Str} {mains subs : Option Str → Prop}
    (h : TellsApart mapping mains subs) (toks : List Tok)
    (ht : ∀ t ∈ toks, blank cc t = false → mains (mainValue t) ∧ subs (subValue t)) (t : Tok) (hm : t ∈ toks)
    (hb : blank cc t = false) : Distinct cc mapping toks t := by
  obtain ⟨h1, h2⟩ := ht t hm hb
  have c := h.cand _ h1 _ (tokenPath_cand h2)
  rw [← mainPath_value] at c
  have o := h.outermost _ h1
  rw [← mainPath_value] at o
  have w := h.owner _ h1
  rw [← mainPath_value] at w
  exact ⟨c.1, c.2.1, c.2.2, fun k hk1 hk2 => ⟨(o k hk1 hk2).1,
    fun u hu hbu => (o k hk1 hk2).2 _ (ht u hu hbu).1 _ (tokenPath_cand (ht u hu hbu).2)⟩, w⟩

/-- Sub tags with one element for their path make no difference. -/
theorem tellsApart_subs {mapping : Dict Str} {mains subs subs' : Option Str → Prop} (h : TellsApart mapping mains subs)
    (hne : ∀ v, mains v → tagRequiredPath mapping v ≠ [])
    (hs : ∀ s, subs' s → subs s ∨ (tagRequiredPath mapping s).length ≤ 1) : TellsApart mapping mains subs' := by
  have hc : ∀ v, mains v → ∀ p, Cand mapping subs' v p → Cand mapping subs v p := by
    intro v hv p hp
    rcases hp with hp | ⟨s, h1, h2, h3⟩
    · exact .inl hp
    · rcases hs s h1 with hs | hs
      · exact .inr ⟨s, hs, h2, h3⟩
      · left
        rw [h2] at hs
        have := List.length_pos_iff.2 (hne v hv)
        exact (h3.eq_of_length (by have := h3.length_le; omega)).symm
  exact ⟨fun v hv p hp => h.cand v hv p (hc v hv p hp),
    fun v hv k h1 h2 => ⟨(h.outermost v hv k h1 h2).1, fun u hu p hp => (h.outermost v hv k h1 h2).2 u hu p (hc u hu p hp)⟩,
    h.owner⟩

theorem parse_noteExpr {f : Str} (hf : f ≠ []) (hn : '\n' ∉ f) :
    parseTagExpression (noteExpr f) = .ok (c!"note", [(c!"type", f)]) := by
  have e : noteExpr f = c!"note" ++ c!"[" ++ c!"@" ++ c!"type" ++ c!"=\"" ++ f ++ c!"\"]" ++ [] := by simp [noteExpr]
  rw [e]
  exact (C56_expression _ _ _).2 (TagExpression.withAttribute c!"note" c!"@" c!"type" f [] (by decide) (by decide) (by decide)
    (by decide) hf hn (.inl rfl) (.inl rfl))

theorem stable_noteExpr {f : Str} (hf : f ≠ []) (hn : '\n' ∉ f) : Stable (noteExpr f) := by
  intro tag attrib h
  rw [parse_noteExpr hf hn] at h
  cases h
  exact ⟨by simp [component, noteExpr], by decide⟩

theorem splitPath_oneStep {s : Str} (hs : OneStep s) : splitPath s = [s] := by
  have plain : ∀ e : Str, OneStep e → Props.slashesEnclosed false e = true := by
    intro e he
    induction e with
    | nil => rfl
    | cons c e ih =>
      obtain ⟨h1, h2, h3, _⟩ := he c (List.mem_cons_self ..)
      rw [Props.slashesEnclosed, if_neg h2, if_neg h3, ih (fun c hc => he c (List.mem_cons_of_mem _ hc))]
      simp [h1]
  exact Props.C56_path_round_trip_partial [s] (by simp) (fun f hf => by rw [List.mem_singleton.1 hf]; exact plain s hs)

theorem oneStep_noteExpr {f : Str} (hf : OneStep f) : OneStep (noteExpr f) := by
  unfold noteExpr
  intro x hx
  rcases List.mem_append.1 hx with hx | hx
  · rcases List.mem_append.1 hx with hx | hx
    · exact (by decide : ∀ x ∈ c!"note[@type=\"", x ≠ '/' ∧ x ≠ '{' ∧ x ≠ '}' ∧ x ≠ '\n') x hx
    · exact hf x hx
  · exact (by decide : ∀ x ∈ c!"\"]", x ≠ '/' ∧ x ≠ '{' ∧ x ≠ '}' ∧ x ≠ '\n') x hx

/-- The texts of a mapping which could be the element of a further field. -/
def noteLike (base : Dict Str) (vs : List (Option Str)) : List Str :=
  (base.map (·.2) ++ (vs.map (tagRequiredPath base)).flatMap (fun p =>
    p.take 1 ++ (List.range (p.length + 1)).map (fun k => joinWith c!"/" (p.take k))))

theorem noteLike_value {base : Dict Str} {vs : List (Option Str)} {s : Str} (h : s ∈ base.map (·.2)) : s ∈ noteLike base vs :=
  List.mem_append_left _ h

theorem noteLike_path {base : Dict Str} {vs : List (Option Str)} {v : Option Str} (h : v ∈ vs) (s : Str)
    (hs : (tagRequiredPath base v).head? = some s ∨ ∃ k, k ≤ (tagRequiredPath base v).length ∧ joinWith c!"/" ((tagRequiredPath base v).take k) = s) :
    s ∈ noteLike base vs := by
  refine List.mem_append_right _ (List.mem_flatMap.2 ⟨_, List.mem_map_of_mem h, ?_⟩)
  rcases hs with hs | ⟨k, hk, hs⟩
  · refine List.mem_append_left _ ?_
    cases hp : tagRequiredPath base v with
    | nil => rw [hp] at hs; cases hs
    | cons a l => rw [hp] at hs; cases hs; simp
  · exact List.mem_append_right _ (List.mem_map.2 ⟨k, List.mem_range.2 (by omega), hs⟩)

theorem get?_notes (base : Dict Str) (news : List Str) (k : Str) :
    Dict.get? (base ++ news.map (fun f => (f, noteExpr f))) k =
      (base.get? k).or (if k ∈ news then some (noteExpr k) else none) := by
  induction base with
  | nil =>
    rw [List.nil_append]
    induction news with
    | nil => rfl
    | cons f fs ih =>
      show (if f = k then some (noteExpr f) else Dict.get? (fs.map (fun f => (f, noteExpr f))) k) = _
      rw [ih]
      by_cases hf : f = k
      · subst hf; simp [Dict.get?]
      · simp [hf, Ne.symm hf, Dict.get?]
  | cons p base ih =>
    show (if p.1 = k then some p.2 else Dict.get? (base ++ news.map (fun f => (f, noteExpr f))) k) =
      (if p.1 = k then some p.2 else Dict.get? base k).or _
    rw [ih]
    split <;> rfl

theorem required_notes {base : Dict Str} {news : List Str} (h0 : (base.get? []).isSome = true) {v : Option Str}
    (hv : ∀ f ∈ news, v = some f → (base.get? f).isSome = true) :
    tagRequiredPath (base ++ news.map (fun f => (f, noteExpr f))) v = tagRequiredPath base v := by
  unfold tagRequiredPath
  split
  · next c t =>
    unfold Dict.getD
    rw [get?_notes]
    cases hb : base.get? (c :: t) with
    | some p => rfl
    | none =>
      rw [if_neg (fun hm => by have := hv _ hm rfl; rw [hb] at this; cases this)]
      rfl
  · rw [get?_notes]
    cases hb : base.get? [] with
    | some p => rfl
    | none => rw [hb] at h0; cases h0

theorem required_note {base : Dict Str} {news : List Str} {f : Str} (hf : f ∈ news) (hb : base.get? f = none) (hne : f ≠ [])
    (h1 : OneStep f) : tagRequiredPath (base ++ news.map (fun f => (f, noteExpr f))) (some f) = [noteExpr f] := by
  cases f with
  | nil => exact absurd rfl hne
  | cons c t =>
    show splitPath ((Dict.get? _ (c :: t)).getD (c :: t)) = _
    rw [get?_notes, hb, if_pos hf]
    exact splitPath_oneStep (oneStep_noteExpr h1)

theorem tagOfPath_notes {base : Dict Str} {news : List Str} {s : Str} (hs : ∀ f ∈ news, s ≠ noteExpr f) :
    tagOfPath (base ++ news.map (fun f => (f, noteExpr f))) s = tagOfPath base s := by
  unfold tagOfPath
  rw [List.filter_append]
  have : (news.map (fun f => (f, noteExpr f))).filter (fun p => decide (p.2 = s)) = [] := by
    rw [List.filter_eq_nil_iff]
    intro p hp
    obtain ⟨f, hf, rfl⟩ := List.mem_map.1 hp
    simpa using fun e => hs f hf e.symm
  rw [this, List.append_nil]

theorem tagOfPath_note {base : Dict Str} {news : List Str} {f : Str} (hf : f ∈ news) :
    tagOfPath (base ++ news.map (fun f => (f, noteExpr f))) (noteExpr f) = f := by
  unfold tagOfPath
  rw [List.filter_append]
  have hall : ∀ p ∈ (news.map (fun f => (f, noteExpr f))).filter (fun p => decide (p.2 = noteExpr f)), p.1 = f := by
    intro p hp
    obtain ⟨h1, h2⟩ := List.mem_filter.1 hp
    obtain ⟨g, _, rfl⟩ := List.mem_map.1 h1
    exact noteExpr_inj (of_decide_eq_true h2)
  have hne : (news.map (fun f => (f, noteExpr f))).filter (fun p => decide (p.2 = noteExpr f)) ≠ [] :=
    List.ne_nil_of_mem (List.mem_filter.2 ⟨List.mem_map_of_mem (f := fun f => (f, noteExpr f)) hf, by simp⟩)
  rw [List.getLast?_append, List.getLast?_eq_some_getLast hne]
  exact hall _ (List.getLast_mem hne)

/-- The labels can still be told apart with further fields. -/
theorem tellsApart_notes {base : Dict Str} {mains subs : List (Option Str)} {news : List Str}
    (h : TellsApart base (fun v => v ∈ mains) (fun s => s ∈ subs))
    (h0 : (base.get? []).isSome = true) (hne : ∀ v ∈ mains, tagRequiredPath base v ≠ [])
    (hnews : ∀ f ∈ news, base.get? f = none ∧ OneStep f ∧ noteExpr f ∉ noteLike base (mains ++ subs) ∧
      some f ∉ mains ∧ some f ∉ subs) :
    TellsApart (base ++ news.map (fun f => (f, noteExpr f))) (fun v => v ∈ mains ++ news.map some)
      (fun s => s ∈ subs ++ news.map some) := by
  have hold : ∀ v, v ∈ mains ++ subs →
      tagRequiredPath (base ++ news.map (fun f => (f, noteExpr f))) v = tagRequiredPath base v := by
    intro v hv
    refine required_notes h0 (fun f hf e => ?_)
    subst e
    rcases List.mem_append.1 hv with hv | hv
    · exact absurd hv (hnews f hf).2.2.2.1
    · exact absurd hv (hnews f hf).2.2.2.2
  have hnil : ∀ f ∈ news, f ≠ [] := by
    rintro f hf rfl
    rw [(hnews [] hf).1] at h0
    cases h0
  have hnew : ∀ f ∈ news, tagRequiredPath (base ++ news.map (fun f => (f, noteExpr f))) (some f) = [noteExpr f] :=
    fun f hf => required_note hf (hnews f hf).1 (hnil f hf) (hnews f hf).2.1
  have hhead : ∀ v, v ∈ mains ++ subs → ∀ f ∈ news, (tagRequiredPath base v).head? ≠ some (noteExpr f) :=
    fun v hv f hf e => (hnews f hf).2.2.1 (noteLike_path hv _ (.inl e))
  have hcold : ∀ v ∈ mains, ∀ p, Cand (base ++ news.map (fun f => (f, noteExpr f))) (fun s => s ∈ subs ++ news.map some) v p →
      Cand base (fun s => s ∈ subs) v p := by
    intro v hv p hp
    unfold Cand at hp
    rw [hold v (List.mem_append_left _ hv)] at hp
    rcases hp with hp | ⟨s, h1, h2, h3⟩
    · exact .inl hp
    · rcases List.mem_append.1 h1 with h1 | h1
      · rw [hold s (List.mem_append_right _ h1)] at h2
        exact .inr ⟨s, h1, h2, h3⟩
      · obtain ⟨f, hf, rfl⟩ := List.mem_map.1 h1
        rw [hnew f hf] at h2
        subst h2
        exfalso
        cases hq : tagRequiredPath base v with
        | nil => exact hne v hv hq
        | cons a l =>
          rw [hq] at h3
          refine hhead v (List.mem_append_left _ hv) f hf ?_
          rw [hq]
          exact congrArg some (List.cons_prefix_cons.1 h3).1
  have hcnew : ∀ f ∈ news, ∀ p, Cand (base ++ news.map (fun f => (f, noteExpr f))) (fun s => s ∈ subs ++ news.map some) (some f) p →
      p = [noteExpr f] := by
    intro f hf p hp
    unfold Cand at hp
    rw [hnew f hf] at hp
    rcases hp with hp | ⟨s, h1, h2, h3⟩
    · exact hp
    · rcases List.mem_append.1 h1 with h1 | h1
      · rw [hold s (List.mem_append_right _ h1)] at h2
        subst h2
        obtain ⟨r, hr⟩ := h3
        exact absurd (by rw [← hr]; rfl) (hhead s (List.mem_append_right _ h1) f hf)
      · obtain ⟨g, hg, rfl⟩ := List.mem_map.1 h1
        rw [hnew g hg] at h2
        subst h2
        exact (h3.eq_of_length rfl).symm
  have hvals : (base ++ news.map (fun f => (f, noteExpr f))).map (·.2) = base.map (·.2) ++ news.map noteExpr := by
    rw [List.map_append, List.map_map]
    rfl
  refine ⟨fun v hv p hp => ?_, fun v hv k hk1 hk2 => ?_, fun v hv hn => ?_⟩
  · rcases List.mem_append.1 hv with hv | hv
    · have := h.cand v hv p (hcold v hv p hp)
      rw [hold v (List.mem_append_left _ hv), hvals]
      exact ⟨this.1, this.2.1, this.2.2.imp (List.mem_append_left _) id⟩
    · obtain ⟨f, hf, rfl⟩ := List.mem_map.1 hv
      have := hcnew f hf p hp
      subst this
      rw [hnew f hf]
      refine ⟨fun g hg => ?_, fun e => (nomatch e), .inr rfl⟩
      rw [List.mem_singleton.1 hg]
      exact stable_noteExpr (hnil f hf) (fun hm => ((hnews f hf).2.1 _ hm).2.2.2 rfl)
  · rcases List.mem_append.1 hv with hv | hv
    · rw [hold v (List.mem_append_left _ hv)] at hk2 ⊢
      obtain ⟨o1, o2⟩ := h.outermost v hv k hk1 hk2
      rw [hvals]
      refine ⟨fun hm => ?_, fun u hu p hp => ?_⟩
      · rcases List.mem_append.1 hm with hm | hm
        · exact o1 hm
        · obtain ⟨f, hf, e⟩ := List.mem_map.1 hm
          exact (hnews f hf).2.2.1 (noteLike_path (List.mem_append_left _ hv) _ (.inr ⟨k, by omega, e.symm⟩))
      · rcases List.mem_append.1 hu with hu | hu
        · exact o2 u hu p (hcold u hu p hp)
        · obtain ⟨f, hf, rfl⟩ := List.mem_map.1 hu
          have := hcnew f hf p hp
          subst this
          intro e
          refine hhead v (List.mem_append_left _ hv) f hf ?_
          cases hq : tagRequiredPath base v with
          | nil => rw [hq] at hk2; exact absurd hk2 (Nat.not_lt_zero _)
          | cons a l =>
            rw [hq] at e
            cases k with
            | zero => omega
            | succ k =>
              rw [List.take_succ_cons] at e
              exact congrArg some (List.cons.inj e).1.symm
    · obtain ⟨f, hf, rfl⟩ := List.mem_map.1 hv
      rw [hnew f hf] at hk2
      simp only [List.length_singleton] at hk2
      omega
  · rcases List.mem_append.1 hv with hv | hv
    · rw [hold v (List.mem_append_left _ hv)] at hn ⊢
      rw [tagOfPath_notes (fun f hf e => ?_)]
      · exact h.owner v hv hn
      · exact (hnews f hf).2.2.1 (noteLike_path (List.mem_append_left _ hv) _ (.inr ⟨_, Nat.le_refl _, by rw [List.take_length]; exact e⟩))
    · obtain ⟨f, hf, rfl⟩ := List.mem_map.1 hv
      rw [hnew f hf]
      exact tagOfPath_note hf

end Verif
