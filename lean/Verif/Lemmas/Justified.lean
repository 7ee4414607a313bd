/-
Every label given by the matcher without extension to lines is justified by a match.
-/
import Verif.Props.MatchingRanges
import Verif.Spec.Justified

namespace Verif
open Spec

theorem laidOut_unique {text : Str} {items gaps : List Str} {p q : List (Nat × Nat)} (hp : LaidOut text items gaps p)
    (hq : LaidOut text items gaps q) : p = q := by
  apply List.ext_getElem?
  intro i
  by_cases hi : i < items.length
  · induction i with
    | zero =>
      have a : p[0]? = some (p[0]'(by rw [hp.length]; exact hi)) := List.getElem?_eq_getElem _
      have b : q[0]? = some (q[0]'(by rw [hq.length]; exact hi)) := List.getElem?_eq_getElem _
      have c : items[0]? = some items[0] := List.getElem?_eq_getElem hi
      have h1 := (hp.item 0 _ _ c a).1
      have h2 := (hq.item 0 _ _ c b).1
      have h3 := hp.first _ a
      have h4 := hq.first _ b
      rw [a, b]
      exact congrArg some (Prod.ext (by omega) (by omega))
    | succ i ih =>
      have hi' : i < items.length := by omega
      have ih := ih hi'
      have a0 : p[i]? = some (p[i]'(by rw [hp.length]; exact hi')) := List.getElem?_eq_getElem _
      have a : p[i + 1]? = some (p[i + 1]'(by rw [hp.length]; exact hi)) := List.getElem?_eq_getElem _
      have b : q[i + 1]? = some (q[i + 1]'(by rw [hq.length]; exact hi)) := List.getElem?_eq_getElem _
      have c : items[i + 1]? = some items[i + 1] := List.getElem?_eq_getElem hi
      have h1 := (hp.item _ _ _ c a).1
      have h2 := (hq.item _ _ _ c b).1
      obtain ⟨g, hg, h3, _⟩ := hp.gap _ _ _ a0 a
      obtain ⟨g', hg', h4, _⟩ := hq.gap _ _ _ (ih ▸ a0) b
      rw [hg] at hg'
      cases hg'
      rw [a, b]
      exact congrArg some (Prod.ext (by omega) (by omega))
  · rw [List.getElem?_eq_none (by rw [hp.length]; omega), List.getElem?_eq_none (by rw [hq.length]; omega)]

theorem tokenAt_iff (env : SeqEnv) (d : Doc) (seqs : List (List Nat)) (hne : ∀ s ∈ seqs, s ≠ []) (r : Nat × Nat) (i : Nat) :
    i ∈ seqTokensBetween env d r.1 r.2 seqs ↔ TokenAt env d seqs r i := by
  obtain ⟨places, h1, h2⟩ := C40_tokens_between env d seqs hne
  constructor
  · intro h
    rw [h2] at h
    obtain ⟨x, hx, rfl⟩ := List.mem_map.1 h
    obtain ⟨hx, ho⟩ := List.mem_filter.1 hx
    exact ⟨places, h1, x.2, hx, ho⟩
  · rintro ⟨places', h1', p, hp, ho⟩
    have e : places' = places := laidOut_unique h1' h1
    subst e
    rw [h2]
    exact List.mem_map.2 ⟨(i, p), List.mem_filter.2 ⟨hp, ho⟩, rfl⟩

/-- What holds for the document while matching. -/
structure Justified (env : MatchEnv) (cfg : MatchCfg) (targets : List Target) (d0 d : Doc) : Prop where
  same : SameBut d0 d
  tag : ∀ j, d.getTag j = d0.getTag j ∨
    (truthy (d0.getTag j) = false ∧ ∃ t ∈ targets, (∃ seqs r, MatchAt env cfg d0 t seqs r ∧ TokenAt (matchSeqEnv env) d0 seqs r j) ∧
      ∃ k, d.getTag j = indexTag cfg t.name k)
  sub : ∀ j, d.getSubTag j = d0.getSubTag j ∨
    (truthy (d0.getSubTag j) = false ∧ ∃ t ∈ targets, ∃ s ∈ t.subs, (∃ seqs r, MatchAt env cfg d0 t seqs r ∧ SubFound env cfg d0 seqs r s j) ∧
      ∃ k, d.getSubTag j = indexTag cfg s.1 k)

theorem Justified.refl (env : MatchEnv) (cfg : MatchCfg) (targets : List Target) (d : Doc) : Justified env cfg targets d d :=
  ⟨.refl d, fun _ => .inl rfl, fun _ => .inl rfl⟩

theorem Justified.mono {env : MatchEnv} {cfg : MatchCfg} {ts ts' : List Target} {d0 d : Doc} (h : Justified env cfg ts d0 d)
    (hs : ∀ t ∈ ts, t ∈ ts') : Justified env cfg ts' d0 d := by
  refine ⟨h.same, fun j => ?_, fun j => ?_⟩
  · rcases h.tag j with e | ⟨e, t, ht, r⟩
    · exact .inl e
    · exact .inr ⟨e, t, hs t ht, r⟩
  · rcases h.sub j with e | ⟨e, t, ht, r⟩
    · exact .inl e
    · exact .inr ⟨e, t, hs t ht, r⟩

/-- A token without a label had none before. -/
theorem Justified.untagged {env : MatchEnv} {cfg : MatchCfg} {ts : List Target} {d0 d : Doc} (h : Justified env cfg ts d0 d) {j : Nat}
    (hj : truthy (d.getTag j) = false) : truthy (d0.getTag j) = false := by
  rcases h.tag j with e | ⟨e, _⟩
  · rw [← e]; exact hj
  · exact e

theorem Justified.subUntagged {env : MatchEnv} {cfg : MatchCfg} {ts : List Target} {d0 d : Doc} (h : Justified env cfg ts d0 d) {j : Nat}
    (hj : truthy (d.getSubTag j) = false) : truthy (d0.getSubTag j) = false := by
  rcases h.sub j with e | ⟨e, _⟩
  · rw [← e]; exact hj
  · exact e

theorem updateRange_justified {env : MatchEnv} {cfg : MatchCfg} {ts : List Target} {d0 d : Doc} (hj : Justified env cfg ts d0 d)
    {t : Target} (ht : t ∈ ts) {seqs : List (List Nat)} (hne : ∀ s ∈ seqs, s ≠ []) {r : Nat × Nat} (hm : MatchAt env cfg d0 t seqs r) :
    Justified env cfg ts d0 (updateRange (matchSeqEnv env) cfg seqs r t.name d) := by
  unfold updateRange
  split
  case isFalse => exact hj
  simp only
  refine ⟨hj.same.trans (tagTokens_sameBut _ _ _ _ _), fun j => ?_, fun j => ?_⟩
  · by_cases hmem : j ∈ (seqTokensBetween (matchSeqEnv env) d r.1 r.2 seqs).filter (fun i => !truthy (d.getTag i))
    · obtain ⟨k, hk⟩ := tagTokens_some cfg t.name d 0 _ j hmem
      obtain ⟨h1, h2⟩ := List.mem_filter.1 hmem
      have h2 : truthy (d.getTag j) = false := by simpa using h2
      rw [seqTokensBetween_congr _ hj.same] at h1
      exact .inr ⟨hj.untagged h2, t, ht, ⟨seqs, r, hm, (tokenAt_iff _ _ _ hne _ _).1 h1⟩, k, hk⟩
    · rw [tagTokens_other _ _ _ _ _ _ hmem]
      exact hj.tag j
  · rw [tagTokens_sub]
    exact hj.sub j

theorem subRanges_justified {env : MatchEnv} {cfg : MatchCfg} {ts : List Target} {d0 d d' : Doc} (hj : Justified env cfg ts d0 d)
    {t : Target} (ht : t ∈ ts) {s : Str × TargetValue} (hs : s ∈ t.subs) {tokens : List Nat}
    {err : Option Err} {rs : List (Nat × Nat)}
    (hm : ∀ r ∈ rs, ∀ j ∈ seqTokensBetween ⟨env.cc, id⟩ d0 r.1 r.2 [tokens],
      ∃ seqs r, MatchAt env cfg d0 t seqs r ∧ SubFound env cfg d0 seqs r s j)
    (h : subRanges ⟨env.cc, id⟩ cfg tokens s.1 d err rs = .ok d') : Justified env cfg ts d0 d' := by
  induction rs with
  | nil =>
    unfold subRanges at h
    cases err with
    | none => cases h; exact hj
    | some e => cases h
  | cons r rs ih =>
    unfold subRanges at h
    simp only at h
    split at h
    · exact ih (fun r hr => hm r (List.mem_cons_of_mem _ hr)) h
    · next hany =>
      cases h
      refine ⟨hj.same.trans (subTagTokens_sameBut _ _ _ _ _), fun j => ?_, fun j => ?_⟩
      · rw [subTagTokens_tag]; exact hj.tag j
      · by_cases hmem : j ∈ seqTokensBetween ⟨env.cc, id⟩ d r.1 r.2 [tokens]
        · obtain ⟨k, hk⟩ := subTagTokens_some cfg s.1 d 0 _ j hmem
          have h2 : truthy (d.getSubTag j) = false := by
            cases hx : truthy (d.getSubTag j) with
            | false => rfl
            | true => exact absurd (List.any_eq_true.2 ⟨j, hmem, hx⟩) hany
          rw [seqTokensBetween_congr _ hj.same] at hmem
          exact .inr ⟨hj.subUntagged h2, t, ht, s, hs, hm r List.mem_cons_self j hmem, k, hk⟩
        · rw [subTagTokens_other _ _ _ _ _ _ hmem]
          exact hj.sub j

theorem subAnnotations_justified {env : MatchEnv} {cfg : MatchCfg} {ts : List Target} {d0 d d' : Doc} (hj : Justified env cfg ts d0 d)
    {t : Target} (ht : t ∈ ts) {seqs : List (List Nat)} (hne : ∀ s ∈ seqs, s ≠ []) {r : Nat × Nat} (hm : MatchAt env cfg d0 t seqs r)
    {subs : List (Str × TargetValue)} (hs : ∀ s ∈ subs, s ∈ t.subs)
    (h : subAnnotations env cfg (seqTokensBetween (matchSeqEnv env) d0 r.1 r.2 seqs)
      (env.lower (seqsText ⟨env.cc, id⟩ d0 [seqTokensBetween (matchSeqEnv env) d0 r.1 r.2 seqs])) d subs = .ok d') :
    Justified env cfg ts d0 d' := by
  induction subs generalizing d with
  | nil => cases h; exact hj
  | cons s subs ih =>
    obtain ⟨name, v⟩ := s
    cases v with
    | many vs => cases h
    | one v =>
      unfold subAnnotations at h
      simp only at h
      split at h
      · cases h
      · next d1 h1 =>
        refine ih ?_ (fun s hs' => hs s (List.mem_cons_of_mem _ hs')) h
        refine subRanges_justified (s := (name, .one v)) hj ht (hs _ List.mem_cons_self) ?_ h1
        intro x hx j hjm
        refine ⟨seqs, r, hm, _, v, x, seqTokensBetween_sublist _ _ _ _ _, fun j => tokenAt_iff _ _ _ hne _ _, rfl, hx, ?_⟩
        refine (tokenAt_iff _ _ _ ?_ _ _).1 hjm
        intro s hs' e
        rw [List.mem_singleton] at hs'
        have := mem_seqTokensBetween hjm
        rw [← hs', e] at this
        cases this

theorem applyRanges_justified {env : MatchEnv} {cfg : MatchCfg} {ts : List Target} {d0 d d' : Doc} (hj : Justified env cfg ts d0 d)
    {t : Target} (ht : t ∈ ts) {seqs : List (List Nat)} (hne : ∀ s ∈ seqs, s ≠ []) (htok : seqs.flatten.Sublist d0.nonSpaceTokens)
    (hun : ∀ i ∈ seqs.flatten, truthy (d0.getTag i) = false) {all rs : List (Nat × Nat)}
    (hall : matchingRanges env cfg (seqsText (matchSeqEnv env) d0 seqs) t = .ok all) (hrs : ∀ r ∈ rs, r ∈ all)
    (h : applyRanges env (matchSeqEnv env) cfg seqs t d rs = .ok d') : Justified env cfg ts d0 d' := by
  induction rs generalizing d with
  | nil => cases h; exact hj
  | cons r rs ih =>
    unfold applyRanges at h
    rw [seqsText_congr _ hj.same] at h
    split at h
    · cases h
    · next r' hp =>
      have hm : MatchAt env cfg d0 t seqs r' := ⟨htok, hun, all, r, hall, hrs r List.mem_cons_self, hp⟩
      simp only at h
      have h1 := updateRange_justified hj ht hne hm
      split at h
      · cases h
      · next d2 h2 =>
        refine ih ?_ (fun r hr => hrs r (List.mem_cons_of_mem _ hr)) h
        split at h2
        · unfold processSub at h2
          split at h2
          · cases h2; exact h1
          · simp only at h2
            rw [seqTokensBetween_congr _ h1.same, seqsText_congr _ h1.same] at h2
            exact subAnnotations_justified h1 ht hne hm (fun _ h => h) h2
        · cases h2; exact h1

theorem pendingSequences_flatten_untagged (d : Doc) (seqs : List (List Nat)) (n : Option Nat) :
    ∀ i ∈ (pendingSequences d seqs n).flatten, truthy (d.getTag i) = false := by
  have key : ∀ i ∈ (pendingSequences d seqs none).flatten, truthy (d.getTag i) = false := by
    intro i hi
    unfold pendingSequences at hi
    simp only at hi
    rw [flatten_flatMap_untaggedSub] at hi
    simpa using (List.mem_filter.1 hi).2
  cases n with
  | none => exact key
  | some n =>
    rw [C41_limit]
    split
    · exact key
    · intro i hi
      exact key i ((sublist_flatten (List.take_sublist _ _)).subset hi)

theorem pendingSequences_ne (d : Doc) (seqs : List (List Nat)) (n : Option Nat) (h : ∀ s ∈ seqs, s ≠ []) :
    ∀ s ∈ pendingSequences d seqs n, s ≠ [] := by
  have key : ∀ s ∈ pendingSequences d seqs none, s ≠ [] := by
    intro s hs
    unfold pendingSequences at hs
    obtain ⟨t, ht, hs⟩ := List.mem_flatMap.1 hs
    exact untaggedSub_ne_nil d t (h t ht) s hs
  cases n with
  | none => exact key
  | some n =>
    rw [C41_limit]
    split
    · exact key
    · intro s hs
      exact key s (List.mem_of_mem_take hs)

theorem processTarget_justified {env : MatchEnv} {cfg : MatchCfg} {ts : List Target} {d0 : Doc} {pending : List (List Nat)}
    {st st' : MatchState} {t : Target} (ht : t ∈ ts) (hj : Justified env cfg ts d0 st.doc)
    (hp : ∀ s ∈ pending, s ≠ []) (hps : pending.flatten.Sublist d0.nonSpaceTokens)
    (hc : ∀ s ∈ st.current, s ≠ []) (hcs : st.current.flatten.Sublist pending.flatten)
    (h : processTarget env cfg pending st t = .ok st') :
    Justified env cfg ts d0 st'.doc ∧ ∀ s ∈ st'.current, s ≠ [] := by
  unfold processTarget at h
  simp only at h
  split at h
  · cases h
  · next r rs hr =>
    split at h
    · cases h
    · next d hd =>
      cases h
      rw [seqsText_congr _ hj.same] at hr
      exact ⟨applyRanges_justified hj ht (pendingSequences_ne _ _ _ hc) ((pendingSequences_sublist _ _ _).trans (hcs.trans hps))
        (fun i hi => hj.untagged (pendingSequences_flatten_untagged _ _ _ i hi)) hr (fun _ h => h) hd, hc⟩
  · split at h
    · cases h; exact ⟨hj, hc⟩
    · split at h
      · cases h
      · cases h; exact ⟨hj, hc⟩
      · next r rs hr =>
        split at h
        · cases h
        · next m hm =>
          split at h
          · cases h
          · next d hd =>
            cases h
            rw [seqsText_congr _ hj.same] at hr
            refine ⟨applyRanges_justified hj ht (pendingSequences_ne _ _ _ hp) ((pendingSequences_sublist _ _ _).trans hps)
              (fun i hi => hj.untagged (pendingSequences_flatten_untagged _ _ _ i hi)) hr (fun _ h => h) hd, ?_⟩
            intro s hs
            exact pendingSequences_ne _ _ _ hp s ((seqsBetween_sublist _ _ _ _ _).subset hs)

theorem processTargets_justified {env : MatchEnv} {cfg : MatchCfg} {ts : List Target} {d0 : Doc} {pending : List (List Nat)}
    {st st' : MatchState} {l : List Target} (hl : ∀ t ∈ l, t ∈ ts) (hj : Justified env cfg ts d0 st.doc)
    (hp : ∀ s ∈ pending, s ≠ []) (hps : pending.flatten.Sublist d0.nonSpaceTokens)
    (hc : ∀ s ∈ st.current, s ≠ []) (hcs : st.current.flatten.Sublist pending.flatten)
    (h : processTargets env cfg pending st l = .ok st') : Justified env cfg ts d0 st'.doc := by
  induction l generalizing st with
  | nil => cases h; exact hj
  | cons t l ih =>
    unfold processTargets at h
    split at h
    · cases h
    · next st1 h1 =>
      obtain ⟨a, b⟩ := processTarget_justified (hl t List.mem_cons_self) hj hp hps hc hcs h1
      exact ih (fun t ht => hl t (List.mem_cons_of_mem _ ht)) a b (processTarget_grows env cfg pending st st1 t hcs h1).2.1 h

theorem annotateLoop_justified {env : MatchEnv} {cfg : MatchCfg} {ts : List Target} {d0 : Doc} (n : Nat) {d d' : Doc} {l left : List Target}
    (hl : ∀ t ∈ l, t ∈ ts) (hj : Justified env cfg ts d0 d)
    (h : annotateLoop env cfg n d l = .ok (some (d', left))) : Justified env cfg ts d0 d' := by
  induction n generalizing d l with
  | zero =>
    cases l with
    | nil => cases h; exact hj
    | cons t l => cases h
  | succ n ih =>
    cases l with
    | nil => cases h; exact hj
    | cons t l =>
      unfold annotateLoop at h
      split at h
      · cases h
      · next d1 rem h1 =>
        have hg := (processTargetAnnotations_grows env cfg d d1 (t :: l) rem h1).2
        have hj1 : Justified env cfg ts d0 d1 := by
          unfold processTargetAnnotations at h1
          simp only at h1
          split at h1
          · cases h1
          · next st hst =>
            cases h1
            refine processTargets_justified hl hj (pendingOfDoc_ne_nil d) ?_ (pendingOfDoc_ne_nil d) (.refl _) hst
            rw [pendingOfDoc_flatten, ← hj.same.nonSpaceTokens]
            exact List.filter_sublist
        split at h
        · cases h; exact hj1
        · exact ih (fun t ht => hl t (hg.subset ht)) hj1 h

end Verif
