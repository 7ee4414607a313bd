/-
C127: the value of a sub annotation which occurs literally in the match is labelled where it occurs.
-/
import Verif.Spec.SubPlace
import Verif.Props.LiteralPlace
import Verif.Lemmas.SubKept

namespace Verif
open Spec

/-- The first range found for a text which occurs literally is that of an occurrence. -/
theorem allRanges_place (env : SearchEnv) (hg : GoodMatchers env) (hl : FindsLiteral env.lsm)
    (hd : FindsLiteral env.diff) (hm : env.maxChunks ≤ 1) (ht : env.threshold ≤ 1)
    (hr : ∀ q, 0 ≤ q → 0 ≤ env.rnd q) (text value : Str) (h : OccursWithin env text value) :
    ∃ r rs, (searchAllRanges env text value).1 = r :: rs ∧ OccurrenceAt text value r := by
  have key : ∃ r : Nat × Nat, searchRangeChunks env text value 0 = .ok (some [r]) ∧ OccurrenceAt text value r := by
    obtain ⟨p1, p2⟩ := rangeChunks_place env hg hl hd ht hr text value
    rcases h with ⟨h1, h2, h3⟩ | ⟨h1, h2, h3, h4⟩
    · obtain ⟨q, e, hq, hs⟩ := p1 h1 h2 (words_infix _ _ _ h3)
      have hl0 : value.length ≠ 0 := by simpa using h1
      refine ⟨_, e, by simp only []; omega, hq, ?_⟩
      simp only []
      rw [show q + value.length - q = value.length by omega, hs]
    · obtain ⟨r, e, hr⟩ := p2 h2 (by omega) h3 h4 (.inl hm)
      exact ⟨r, e, hr⟩
  obtain ⟨r, e, ho⟩ := key
  have hlen : 0 < text.length := by have := ho.1; have := ho.2.1; omega
  unfold searchRangeChunks at e
  split at e
  · cases e
  · cases e
  · next ms hms =>
    have e1 : ms.map FuzzyResult.aRange = [r] := by injection e with e; injection e
    obtain ⟨m, rfl⟩ : ∃ m, ms = [m] := by
      cases ms with
      | nil => cases e1
      | cons m ms =>
        cases ms with
        | nil => exact ⟨m, rfl⟩
        | cons m' ms => cases e1
    have e2 : m.aRange = r := by simpa using e1
    let fm : FuzzyResult := ⟨text, value, [m].flatMap FuzzyResult.blocks, env.isJunk⟩
    have hf : fuzzySearch env text value 0 = .ok (some fm) := by
      unfold fuzzySearch
      rw [hms]
    have hfa : fm.aRange = r := by
      rw [← e2]
      show FuzzyResult.aRange ⟨text, value, [m].flatMap FuzzyResult.blocks, env.isJunk⟩ = _
      unfold FuzzyResult.aRange FuzzyResult.nonEmpty
      simp only [List.flatMap_cons, List.flatMap_nil, List.append_nil]
    unfold searchAllRanges
    simp only []
    rw [searchAll, if_pos hlen, hf]
    simp only []
    split
    · exact ⟨_, _, rfl, by rw [hfa]; exact ho⟩
    · exact ⟨_, _, rfl, by rw [hfa]; exact ho⟩

theorem matchPlaces_exist (cc : CharClass) (d : Doc) (tokens : List Nat) (hne : tokens ≠ []) :
    ∃ ranges, MatchPlaces cc d tokens ranges ∧ ∀ r : Nat × Nat, seqTokensBetween ⟨cc, id⟩ d r.1 r.2 [tokens] =
      ((tokens.zip ranges).filter (fun x => overlaps r.1 r.2 x.2)).map Prod.fst := by
  obtain ⟨ranges, hlo, hb⟩ := C40_tokens_between ⟨cc, id⟩ d [tokens] (by simpa using hne)
  have ef : [tokens].flatten = tokens := by simp
  rw [ef] at hlo hb
  exact ⟨ranges, hlo, fun r => hb r.1 r.2⟩

/-- A sub tag changes only where something is found. -/
theorem subRanges_found (senv : SeqEnv) (cfg : MatchCfg) (tokens : List Nat) (name : Str) (d d' : Doc) (err : Option Err)
    (rs : List (Nat × Nat)) (h : subRanges senv cfg tokens name d err rs = .ok d') (j : Nat) :
    d'.getSubTag j = d.getSubTag j ∨ ∃ q ∈ rs, j ∈ seqTokensBetween senv d q.1 q.2 [tokens] := by
  induction rs with
  | nil =>
    unfold subRanges at h
    cases err with
    | none => cases h; exact .inl rfl
    | some e => cases h
  | cons r rs ih =>
    unfold subRanges at h
    simp only [] at h
    split at h
    · rcases ih h with e | ⟨q, hq, hj⟩
      · exact .inl e
      · exact .inr ⟨q, List.mem_cons_of_mem _ hq, hj⟩
    · cases h
      by_cases hj : j ∈ seqTokensBetween senv d r.1 r.2 [tokens]
      · exact .inr ⟨r, List.mem_cons_self, hj⟩
      · exact .inl (subTagTokens_other _ _ _ _ _ j hj)

theorem subTagTokens_first (cfg : MatchCfg) (name : Str) (d : Doc) (i : Nat) (is : List Nat) (h : i ∉ is) :
    (subTagTokens cfg name d 0 (i :: is)).getSubTag i = indexTag cfg name 0 := by
  unfold subTagTokens
  rw [subTagTokens_other _ _ _ _ _ _ h, getSubTag_setSubTag, if_pos rfl]
  rfl

theorem zip_fst_sublist {α β : Type} (l : List α) (m : List β) : ((l.zip m).map Prod.fst).Sublist l := by
  induction l generalizing m with
  | nil => exact List.nil_sublist _
  | cons a l ih =>
    cases m with
    | nil => exact List.nil_sublist _
    | cons b m => exact (ih m).cons_cons a

theorem zip_nodup_unique {α β : Type} (l : List α) (hnd : l.Nodup) (m : List β) (a : α) (b c : β) (h1 : (a, b) ∈ l.zip m)
    (h2 : (a, c) ∈ l.zip m) : b = c := by
  obtain ⟨i, hi⟩ := List.mem_iff_getElem?.1 h1
  obtain ⟨k, hk⟩ := List.mem_iff_getElem?.1 h2
  rw [List.getElem?_zip_eq_some] at hi hk
  have : i = k := (List.getElem?_inj (List.getElem?_eq_some_iff.1 hi.1).1 hnd).1 (hi.1.trans hk.1.symm)
  subst this
  exact Option.some.inj (hi.2.symm.trans hk.2)

theorem matchText_congr (cc : CharClass) {d d' : Doc} (h : SameBut d d') (tokens : List Nat) : matchText cc d' tokens = matchText cc d tokens :=
  seqsText_congr _ h _

theorem matchPlaces_congr (cc : CharClass) {d d' : Doc} (h : SameBut d d') (tokens : List Nat) (ranges : List (Nat × Nat)) :
    MatchPlaces cc d' tokens ranges ↔ MatchPlaces cc d tokens ranges := by
  unfold MatchPlaces
  rw [matchText_congr cc h]
  have e1 : (fun i => d'.getText cc i) = (fun i => d.getText cc i) := by
    funext i
    exact getText_sameBut h i
  have e2 : tokenGaps d' [tokens] = tokenGaps d [tokens] := by
    unfold tokenGaps
    simp only [h.whitespace]
  rw [e1, e2]

/-- **C127** for one match: `tokens` are the tokens of the match, in the document `d` before its sub annotations.
The value of a sub annotation which occurs in their text literally is labelled where it occurs, unless tokens of an
occurrence have a sub label, or may get one from the sub annotations before. Missing are texts with letters which become longer as lower case
letters (`hlow`), see `C127_shifted`. -/
theorem C127_match_partial (env : MatchEnv) (cfg : MatchCfg) (he : ExactEnv env cfg) (f : Char → Char) (hlow : ∀ s, env.lower s = s.map f)
    (senv : SeqEnv) (seqs : List (List Nat)) (range : Nat × Nat) (d d' : Doc) (tokens : List Nat)
    (htok : tokens = seqTokensBetween senv d range.1 range.2 seqs) (hnd : seqs.flatten.Nodup)
    (before after : List (Str × TargetValue)) (name v : Str) (hname : name ≠ [] ∧ tagValue (some name) = some name)
    (h : processSub env senv cfg seqs range (before ++ (name, .one v) :: after) d = .ok d')
    (ho : OccursWithin (searchEnv env cfg 1) (env.lower (matchText env.cc d tokens)) (env.lower v))
    (hfree : OccurrencesFree env d tokens v)
    (hbefore : ∀ n w, (n, .one w) ∈ before → NotTakenBy env cfg d tokens w v) :
    SubLabelledAt env d d' tokens v name cfg.useBeginPrefix := by
  have hndt : tokens.Nodup := by rw [htok]; exact hnd.sublist (seqTokensBetween_sublist _ _ _ _ _)
  unfold processSub at h
  rw [if_neg (by simp)] at h
  simp only [] at h
  rw [← htok] at h
  change subAnnotations env cfg tokens (env.lower (matchText env.cc d tokens)) d _ = _ at h
  obtain ⟨r, rs, hfound, hocc⟩ := allRanges_place (searchEnv env cfg 1) he.good he.lsm he.diff (Int.le_refl 1) he.thresholdLe he.rnd _ _ ho
  have hne : tokens ≠ [] := by
    rintro rfl
    have h1 := hocc.1
    have h2 := hocc.2.1
    rw [hlow, List.length_map] at h2
    have : (matchText env.cc d []).length = 0 := rfl
    omega
  obtain ⟨ranges, hlo, hb⟩ := matchPlaces_exist env.cc d tokens hne
  -- the sub annotations before
  have key : ∀ (d1 : Doc), SameBut d d1 →
      (∀ x ∈ tokens.zip ranges, overlaps r.1 r.2 x.2 = true → truthy (d1.getSubTag x.1) = false) →
      subAnnotations env cfg tokens (env.lower (matchText env.cc d tokens)) d1 (before ++ (name, .one v) :: after) = .ok d' →
      ∀ x ∈ tokens.zip ranges, overlaps r.1 r.2 x.2 = true → tagValue (d'.getSubTag x.1) = some name ∧
        ∀ rest, (tokens.zip ranges).filter (fun x => overlaps r.1 r.2 x.2) = x :: rest → cfg.useBeginPrefix = true →
          d'.getSubTag x.1 = some (c!"b-" ++ name) := by
    clear h
    induction before with
    | nil =>
      intro d1 hs hf h x hx hov
      rw [List.nil_append] at h
      unfold subAnnotations at h
      simp only [] at h
      rw [hfound] at h
      split at h
      · cases h
      · next d2 h2 =>
        unfold subRanges at h2
        simp only [] at h2
        rw [seqTokensBetween_congr _ hs, hb r] at h2
        rw [if_neg ?_] at h2
        · cases h2
          have hmem : x.1 ∈ ((tokens.zip ranges).filter (fun x => overlaps r.1 r.2 x.2)).map Prod.fst :=
            List.mem_map.2 ⟨x, List.mem_filter.2 ⟨hx, hov⟩, rfl⟩
          obtain ⟨k, hk⟩ := subTagTokens_some cfg name d1 0 _ x.1 hmem
          have hval := indexTag_strip cfg name k hname.1 hname.2
          have htru : truthy (indexTag cfg name k) = true := by
            cases hi : indexTag cfg name k with
            | none => rw [hi] at hval; cases hval
            | some s =>
              rw [truthy_some]
              rintro rfl
              rw [hi] at hval
              exact hname.1 (Option.some.inj hval).symm
          have g := subAnnotations_grows env cfg tokens _ [] _ d' after h
          rcases g.sub x.1 with e | ⟨e, _⟩
          · refine ⟨by rw [e, hk, ← stripTagPrefix_eq_tagValue]; exact hval, ?_⟩
            intro rest hrest hbp
            rw [e, hrest, List.map_cons, subTagTokens_first]
            · show addTagPrefix (some name) (indexPrefix cfg 0) = _
              unfold indexPrefix addTagPrefix
              rw [if_pos hbp, if_pos rfl]
              simp only []
              rw [if_pos]
              · rfl
              · rw [Bool.and_eq_true, truthy_some, truthy_some]
                exact ⟨by decide, hname.1⟩
            · have hn2 : (((tokens.zip ranges).filter (fun x => overlaps r.1 r.2 x.2)).map Prod.fst).Nodup := by
                refine hndt.sublist ((List.filter_sublist.map _).trans ?_)
                exact zip_fst_sublist _ _
              rw [hrest, List.map_cons] at hn2
              exact (List.nodup_cons.1 hn2).1
          · rw [hk, htru] at e; cases e
        · intro hany
          obtain ⟨i, hi, ht⟩ := List.any_eq_true.1 hany
          obtain ⟨y, hy, rfl⟩ := List.mem_map.1 hi
          obtain ⟨hy1, hy2⟩ := List.mem_filter.1 hy
          rw [hf y hy1 hy2] at ht
          cases ht
    | cons s before ih =>
      intro d1 hs hf h
      obtain ⟨n, w⟩ := s
      rw [List.cons_append] at h
      cases w with
      | many ws => cases h
      | one w =>
        unfold subAnnotations at h
        simp only [] at h
        split at h
        · cases h
        · next d2 h2 =>
          have g := subRanges_grows _ cfg tokens [] n d1 d2 _ _ h2
          refine ih (fun n' w' hm => hbefore n' w' (List.mem_cons_of_mem _ hm)) d2 (hs.trans g.same) ?_ h
          intro x hx hov
          rcases subRanges_found _ cfg tokens n d1 d2 _ _ h2 x.1 with e | ⟨q, hq, hj⟩
          · rw [e]; exact hf x hx hov
          · rw [seqTokensBetween_congr _ hs, hb q] at hj
            obtain ⟨y, hy, hyx⟩ := List.mem_map.1 hj
            obtain ⟨hy1, hy2⟩ := List.mem_filter.1 hy
            have : y.2 = x.2 := zip_nodup_unique tokens hndt ranges x.1 y.2 x.2 (by rw [← hyx]; exact hy1) hx
            have hno := hbefore n w List.mem_cons_self ranges r q hlo hocc hq x hx hov
            rw [this, hno] at hy2
            cases hy2
  have hkey := key d (.refl d) (hfree ranges r hlo hocc) h
  refine ⟨ranges, r, hlo, hocc.1, ?_, ?_, fun x hx hov => (hkey x hx hov).1, fun x rest hxr hbp => ?_⟩
  · have := hocc.2.1
    rw [hlow, List.length_map] at this
    exact this
  · have := hocc.2.2
    rw [hlow, slice_map] at this
    rw [hlow]
    exact this
  · have hm : x ∈ (tokens.zip ranges).filter (fun x => overlaps r.1 r.2 x.2) := by rw [hxr]; exact List.mem_cons_self
    exact (hkey x (List.mem_filter.1 hm).1 (List.mem_filter.1 hm).2).2 rest hxr hbp

theorem subOccurs_congr (env : MatchEnv) (cfg : MatchCfg) {d d' : Doc} (h : SameBut d d') (hs : ∀ j, d'.getSubTag j = d.getSubTag j)
    (tokens : List Nat) (before : List (Str × TargetValue)) (value : Str) (ho : SubOccurs env cfg d tokens before value) :
    SubOccurs env cfg d' tokens before value := by
  obtain ⟨h1, h2, h3⟩ := ho
  unfold SubOccurs OccurrencesFree NotTakenBy at *
  simp only [matchText_congr env.cc h, matchPlaces_congr env.cc h, hs]
  exact ⟨h1, h2, h3⟩

theorem subLabelledAt_congr (env : MatchEnv) {d e d' : Doc} (h : SameBut d e) (tokens : List Nat) (value label : Str) (prefixes : Bool)
    (ho : SubLabelledAt env e d' tokens value label prefixes) : SubLabelledAt env d d' tokens value label prefixes := by
  unfold SubLabelledAt at *
  simp only [matchText_congr env.cc h, matchPlaces_congr env.cc h] at ho
  exact ho

theorem extendDoc_sub (cfg : MatchCfg) (d : Doc) (j : Nat) : (extendDoc cfg d).getSubTag j = d.getSubTag j := by
  unfold extendDoc
  suffices ∀ (ls : List Line) (d : Doc), (ls.foldl (extendLine (extendCfg cfg)) d).getSubTag j = d.getSubTag j from this _ _
  intro ls
  induction ls with
  | nil => intro d; rfl
  | cons l ls ih =>
    intro d
    rw [List.foldl_cons, ih]
    exact setTags_sub _ _ _

/-- **C127** for the target annotation whose turn it is, see `C126_in_turn`. -/
theorem C127_in_turn_partial (env : MatchEnv) (cfg : MatchCfg) (he : ExactEnv env cfg) (f : Char → Char) (hlow : ∀ s, env.lower s = s.map f)
    (hu : cfg.useSubAnnotations = true)
    (before after : List Target) (t : Target) (v : Str) (d d' : Doc) (hnd : d.nonSpaceTokens.Nodup)
    (hre : truthy (cfg.tagConfig t.name).matchPrefixRegex = false)
    (h : simpleAnnotate env cfg (before ++ t :: after) d = .ok d')
    (st : MatchState) (hst : processTargets env cfg (pendingOfDoc d) ⟨d, pendingOfDoc d, none, []⟩ before = .ok st)
    (seqs : List (List Nat))
    (hs : seqs = pendingSequences st.doc st.current (some cfg.lookahead) ∨
      (matchingRanges env cfg (seqsText (matchSeqEnv env) st.doc (pendingSequences st.doc st.current (some cfg.lookahead))) t = .ok [] ∧
        st.block ≠ pyOr (cfg.tagConfig t.name).blockName (some c!"default") ∧
        seqs = pendingSequences st.doc (pendingOfDoc d) none))
    (hne : ∀ s ∈ seqs, s ≠ [])
    (ho : OccursFor env cfg t v (seqsText (matchSeqEnv env) st.doc seqs))
    (sb sa : List (Str × TargetValue)) (name w : Str) (hsubs : t.subs = sb ++ (name, .one w) :: sa)
    (hname : name ≠ [] ∧ tagValue (some name) = some name)
    (hsub : ∀ tokens, OccurrenceTokens env st.doc seqs (normaliseStr env.lower v) tokens → SubOccurs env cfg st.doc tokens sb w) :
    ∃ tokens, OccurrenceTokens env st.doc seqs (normaliseStr env.lower v) tokens ∧
      SubLabelledAt env st.doc d' tokens w name cfg.useBeginPrefix ∧
      (cfg.mainTags = true → (∀ i, ProperTag (d.getTag i)) →
        (∀ t' ∈ before ++ t :: after, t'.name ≠ [] ∧ tagValue (some t'.name) = some t'.name) →
        ∀ i ∈ tokens, tagValue (d'.getTag i) = some t.name) := by
  obtain ⟨r, hr, hr1, hr2, hr3⟩ := C126_range env cfg he t v _ ho
  have hmain : cfg.mainTags = true → (∀ i, ProperTag (d.getTag i)) →
      (∀ t' ∈ before ++ t :: after, t'.name ≠ [] ∧ tagValue (some t'.name) = some t'.name) →
      ∀ i ∈ seqTokensBetween (matchSeqEnv env) st.doc r.1 r.2 seqs, tagValue (d'.getTag i) = some t.name := by
    intro hm hp hn i hi
    obtain ⟨ranges, hlo, hlab⟩ := in_turn_range env cfg he hm before after t d d' hnd hp hn h st hst seqs hs hne r hr
    obtain ⟨ranges', hlo', hb⟩ := C40_tokens_between (matchSeqEnv env) st.doc seqs hne
    obtain rfl := laidOut_unique hlo hlo'
    rw [hb r.1 r.2] at hi
    obtain ⟨x, hx, rfl⟩ := List.mem_map.1 hi
    exact hlab x (List.mem_filter.1 hx).1 (List.mem_filter.1 hx).2
  obtain ⟨d1, left, hl, rfl⟩ := C19_aux env cfg _ d d' h
  have hl' := hl
  rw [show (before ++ t :: after).length = before.length + after.length + 1 by simp; omega] at hl'
  have hcons : ∃ t0 ts0, before ++ t :: after = t0 :: ts0 := by
    cases before with
    | nil => exact ⟨_, _, rfl⟩
    | cons a b => exact ⟨_, _, rfl⟩
  obtain ⟨t0, ts0, h0⟩ := hcons
  have hround : ∃ dR rem, processTargetAnnotations env cfg d (before ++ t :: after) = .ok (dR, rem) ∧
      Grows cfg dR.nonSpaceTokens (targetNames (before ++ t :: after)) (targetSubNames (before ++ t :: after)) dR d1 := by
    rw [h0] at hl' ⊢
    unfold annotateLoop at hl'
    split at hl'
    · cases hl'
    · next dR rem hR =>
      refine ⟨dR, rem, hR, ?_⟩
      split at hl'
      · cases hl'; exact .refl _ _ _ _ _
      · have hsub := (processTargetAnnotations_grows env cfg d dR _ rem hR).2
        have := (annotateLoop_grows env cfg _ dR d1 rem left hl').1
        exact this.mono (fun _ h => h) (targetNames_subset hsub) (targetSubNames_subset hsub)
  obtain ⟨dR, rem, hR, gR⟩ := hround
  unfold processTargetAnnotations at hR
  simp only [] at hR
  rw [processTargets_append, hst] at hR
  simp only [] at hR
  split at hR
  · cases hR
  · next stE hE =>
    cases hR
    unfold processTargets at hE
    split at hE
    · cases hE
    · next st1 h1 =>
      have gB := (processTargets_grows env cfg (pendingOfDoc d) before ⟨d, pendingOfDoc d, none, []⟩ st (List.Sublist.refl _) hst).1
      have hcurS : st.current.flatten.Sublist (pendingOfDoc d).flatten := by
        have key : ∀ (ts : List Target) (a b : MatchState), a.current.flatten.Sublist (pendingOfDoc d).flatten →
            processTargets env cfg (pendingOfDoc d) a ts = .ok b → b.current.flatten.Sublist (pendingOfDoc d).flatten := by
          intro ts
          induction ts with
          | nil => intro a b ha hb; cases hb; exact ha
          | cons x ts ih =>
            intro a b ha hb
            unfold processTargets at hb
            split at hb
            · cases hb
            · next c hc => exact ih c b (processTarget_grows env cfg _ a c x ha hc).2.1 hb
        exact key before _ st (List.Sublist.refl _) hst
      have happ := processTarget_range env cfg (pendingOfDoc d) st st1 t seqs r hs hr h1
      have hc1 := (processTarget_grows env cfg _ st st1 t hcurS h1).2.1
      have gE := (processTargets_grows env cfg (pendingOfDoc d) after st1 stE hc1 hE).1
      have hsnd : seqs.flatten.Nodup := by
        have hp : (pendingOfDoc d).flatten.Nodup := hnd.sublist (by rw [pendingOfDoc_flatten]; exact List.filter_sublist)
        rcases hs with rfl | ⟨_, _, rfl⟩
        · exact hp.sublist ((pendingSequences_sublist _ _ _).trans hcurS)
        · exact hp.sublist (pendingSequences_sublist _ _ _)
      -- the range is applied
      unfold applyRanges at happ
      have hpre : applyPrefixRegex env cfg (seqsText (matchSeqEnv env) st.doc seqs) r t = .ok r := by
        unfold applyPrefixRegex
        simp only []
        rw [if_neg]
        rintro ⟨_, h⟩
        rw [hre] at h
        cases h
      rw [hpre] at happ
      simp only [] at happ
      rw [if_pos hu] at happ
      split at happ
      · cases happ
      · next d3 h3 =>
        obtain rfl := Except.ok.inj happ
        have gU := updateRange_grows (matchSeqEnv env) cfg seqs r t.name [] st.doc
        have hsubU : ∀ j, (updateRange (matchSeqEnv env) cfg seqs r t.name st.doc).getSubTag j = st.doc.getSubTag j := by
          intro j
          rcases gU.sub j with e | ⟨_, _, n, hn, _⟩
          · exact e
          · cases hn
        obtain ⟨ranges, hlo, hb⟩ := C40_tokens_between (matchSeqEnv env) st.doc seqs hne
        have htk : OccurrenceTokens env st.doc seqs (normaliseStr env.lower v)
            (seqTokensBetween (matchSeqEnv env) st.doc r.1 r.2 seqs) := ⟨ranges, r, hlo, ⟨hr1, hr2, hr3⟩, hb r.1 r.2⟩
        refine ⟨_, htk, ?_, hmain⟩
        obtain ⟨o1, o2, o3⟩ := subOccurs_congr env cfg gU.same hsubU _ _ _ (hsub _ htk)
        rw [hsubs] at h3
        have hm := C127_match_partial env cfg he f hlow (matchSeqEnv env) seqs r _ _ _ (seqTokensBetween_congr _ gU.same _ _ _).symm hsnd sb sa name w hname h3 o1 o2 o3
        have hm := subLabelledAt_congr env gU.same _ _ _ _ hm
        obtain ⟨rg, q, b1, b2, b3, b4, b5, b6⟩ := hm
        have hkept : ∀ x ∈ (seqTokensBetween (matchSeqEnv env) st.doc r.1 r.2 seqs).zip rg, overlaps q.1 q.2 x.2 = true →
            (if cfg.extendToLineEnabled then extendDoc cfg d1 else d1).getSubTag x.1 = st1.doc.getSubTag x.1 := ?_
        refine ⟨rg, q, b1, b2, b3, b4, fun x hx hov => by rw [hkept x hx hov]; exact b5 x hx hov, fun x rest hxr hbp => ?_⟩
        · have hm := List.mem_cons_self (a := x) (l := rest)
          rw [← hxr] at hm
          rw [hkept x (List.mem_filter.1 hm).1 (List.mem_filter.1 hm).2]
          exact b6 x rest hxr hbp
        intro x hx hov
        have hv := b5 x hx hov
        have htru : truthy (st1.doc.getSubTag x.1) = true := by
          cases hi : st1.doc.getSubTag x.1 with
          | none => rw [hi] at hv; cases hv
          | some s =>
            rw [truthy_some]
            rintro rfl
            rw [hi] at hv
            exact hname.1 (Option.some.inj hv).symm
        have e2 : stE.doc.getSubTag x.1 = st1.doc.getSubTag x.1 := by
          rcases gE.sub x.1 with e | ⟨e, _⟩
          · exact e
          · rw [htru] at e; cases e
        have e3 : d1.getSubTag x.1 = st1.doc.getSubTag x.1 := by
          rcases gR.sub x.1 with e | ⟨e, _⟩
          · rw [e, e2]
          · rw [e2, htru] at e; cases e
        split
        · rw [extendDoc_sub, e3]
        · rw [e3]

/-- **C127** for the first target annotation for which something is found. -/
theorem C127_first_partial (env : MatchEnv) (cfg : MatchCfg) (he : ExactEnv env cfg) (f : Char → Char) (hlow : ∀ s, env.lower s = s.map f)
    (hu : cfg.useSubAnnotations = true)
    (before after : List Target) (t : Target) (v : Str) (d d' : Doc) (hnd : d.nonSpaceTokens.Nodup)
    (hre : truthy (cfg.tagConfig t.name).matchPrefixRegex = false)
    (hun : ∀ t' ∈ before, matchingRanges env cfg (seqsText (matchSeqEnv env) d (firstLines d cfg.lookahead)) t' = .ok [] ∧
      matchingRanges env cfg (seqsText (matchSeqEnv env) d (untaggedLines d)) t' = .ok [])
    (h : simpleAnnotate env cfg (before ++ t :: after) d = .ok d')
    (seqs : List (List Nat))
    (hs : seqs = firstLines d cfg.lookahead ∨
      (matchingRanges env cfg (seqsText (matchSeqEnv env) d (firstLines d cfg.lookahead)) t = .ok [] ∧ seqs = untaggedLines d))
    (ho : OccursFor env cfg t v (seqsText (matchSeqEnv env) d seqs))
    (sb sa : List (Str × TargetValue)) (name w : Str) (hsubs : t.subs = sb ++ (name, .one w) :: sa)
    (hname : name ≠ [] ∧ tagValue (some name) = some name)
    (hsub : ∀ tokens, OccurrenceTokens env d seqs (normaliseStr env.lower v) tokens → SubOccurs env cfg d tokens sb w) :
    ∃ tokens, OccurrenceTokens env d seqs (normaliseStr env.lower v) tokens ∧
      SubLabelledAt env d d' tokens w name cfg.useBeginPrefix ∧
      (cfg.mainTags = true → (∀ i, ProperTag (d.getTag i)) →
        (∀ t' ∈ before ++ t :: after, t'.name ≠ [] ∧ tagValue (some t'.name) = some t'.name) →
        ∀ i ∈ tokens, tagValue (d'.getTag i) = some t.name) := by
  have hst := processTargets_unfound env cfg d before [] hun
  have hne : ∀ s ∈ seqs, s ≠ [] := by
    rcases hs with rfl | ⟨_, rfl⟩
    · exact firstLines_ne d _
    · exact untaggedLines_ne d
  refine C127_in_turn_partial env cfg he f hlow hu before after t v d d' hnd hre h _ hst seqs ?_ hne ho sb sa name w hsubs hname hsub
  simp only []
  rw [pendingSequences_first, pendingSequences_self]
  rcases hs with rfl | ⟨h0, rfl⟩
  · exact .inl rfl
  · exact .inr ⟨h0, pyOr_default _ _, rfl⟩

/-! ### The tools -/

theorem clearTags_sub (is : List Nat) (d : Doc) : SameBut d (is.foldl (fun d i => d.setTagOnly i none) d) ∧
    ∀ j, (is.foldl (fun d i => d.setTagOnly i none) d).getSubTag j = d.getSubTag j := by
  induction is generalizing d with
  | nil => exact ⟨.refl d, fun _ => rfl⟩
  | cons i is ih =>
    rw [List.foldl_cons]
    obtain ⟨h1, h2⟩ := ih (d.setTagOnly i none)
    exact ⟨(sameBut_setAttr _ _ _ _).trans h1, fun j => by rw [h2, getSubTag_setTagOnly]⟩

theorem restoreTags_sub (is : List Nat) (d : Doc) (j : Nat) :
    (is.foldl (fun d i => d.setTagOnly i (d.getTagOrPreserved i)) d).getSubTag j = d.getSubTag j := by
  induction is generalizing d with
  | nil => rfl
  | cons i is ih => rw [List.foldl_cons, ih, getSubTag_setTagOnly]

theorem searchedDoc_sub (segment : Bool) (d : Doc) : SameBut d (searchedDoc segment d) ∧
    ∀ j, (searchedDoc segment d).getSubTag j = d.getSubTag j := by
  unfold searchedDoc
  split
  · exact ⟨.refl d, fun _ => rfl⟩
  · exact clearTags_sub _ d

/-- The document which is searched, with or without the sub labels of the source file. -/
def searchedBy (keep segment : Bool) (d : Doc) : Doc := if keep then searchedDoc segment d else searchedReferences segment d

theorem clearPreserved_sub (is : List Nat) (d : Doc) : SameBut d (is.foldl (fun d i => (d.setTagOnly i none).clearPreservedSubTag i) d) ∧
    ∀ j, (is.foldl (fun d i => (d.setTagOnly i none).clearPreservedSubTag i) d).getSubTag j = d.getSubTag j := by
  induction is generalizing d with
  | nil => exact ⟨.refl d, fun _ => rfl⟩
  | cons i is ih =>
    rw [List.foldl_cons]
    obtain ⟨h1, h2⟩ := ih ((d.setTagOnly i none).clearPreservedSubTag i)
    refine ⟨((sameBut_setAttr _ _ _ _).trans (sameBut_setAttr _ _ _ _)).trans h1, fun j => ?_⟩
    rw [h2, ← getSubTag_setTagOnly d i j none]
    have := getAttr_setAttr (d.setTagOnly i none) i j preservedSubTagAttribName (scopedAttribName tagAttribName none (some subLevel)) none
    rw [if_neg (by rintro ⟨_, h⟩; revert h; decide)] at this
    exact this

theorem searchedBy_sub (keep segment : Bool) (d : Doc) : SameBut d (searchedBy keep segment d) ∧
    ∀ j, (searchedBy keep segment d).getSubTag j = d.getSubTag j := by
  unfold searchedBy
  split
  · exact searchedDoc_sub segment d
  · unfold searchedReferences
    split
    · exact ⟨.refl d, fun _ => rfl⟩
    · exact clearPreserved_sub _ d

theorem occurrenceTokens_mem (env : MatchEnv) (d : Doc) (seqs : List (List Nat)) (value : Str) (tokens : List Nat)
    (h : OccurrenceTokens env d seqs value tokens) : ∀ i ∈ tokens, i ∈ seqs.flatten := by
  obtain ⟨ranges, r, _, _, rfl⟩ := h
  intro i hi
  obtain ⟨x, hx, rfl⟩ := List.mem_map.1 hi
  exact (List.of_mem_zip (List.mem_filter.1 hx).1).1

theorem loaded_nonSpace_mem {dc : DocCfg} {root : Elem} {d : Doc} (hl : loadDoc dc root = .ok d) {i : Nat} (hi : i ∈ d.nonSpaceTokens) :
    i ∈ d.allTokens := by
  obtain ⟨lines, h⟩ := sameBut_loadDoc hl
  rw [h.nonSpaceTokens, nonSpaceTokens_ofLines] at hi
  rw [h.allTokens]
  exact (List.mem_filter.1 hi).1

/-- The sub labels given by matching, with or without segmenting. -/
theorem matchOrSub_placed_by (keep : Bool) (env : ToolEnv) (a : ToolArgs) (segment : Bool) (dc : DocCfg) (ac : AnnotateCfg) (root : Elem) (d0 z : Doc)
    (h0 : loadDoc dc root = .ok d0) (he : ExactEnv env.simple (simpleCfg a true keep false)) (f : Char → Char)
    (hlow : ∀ s, env.simple.lower s = s.map f) (x : Target) (after : List Target) (v : Str) (hx : a.targets = x :: after)
    (hre : truthy ((simpleCfg a true keep false).tagConfig x.name).matchPrefixRegex = false)
    (sb sa : List (Str × TargetValue)) (name w : Str) (hsubs : x.subs = sb ++ (name, .one w) :: sa)
    (hname : name ≠ [] ∧ tagValue (some name) = some name)
    (hz : matchOrSubTags env (simpleCfg a true keep false) a.targets segment (beforeAnnotator ac d0) = .ok z) :
    let d := searchedBy keep segment (beforeAnnotator ac d0)
    let lines := firstLines d a.lookahead
    let value := normaliseStr env.simple.lower v
    (OccursFor env.simple (simpleCfg a true keep false) x v (seqsText (matchSeqEnv env.simple) d lines) →
      (∀ tokens, OccurrenceTokens env.simple d lines value tokens →
        OccursWithin (searchEnv env.simple (simpleCfg a true keep false) 1) (env.simple.lower (matchText env.simple.cc d tokens)) (env.simple.lower w) ∧
        ∀ n w', (n, .one w') ∈ sb → NotTakenBy env.simple (simpleCfg a true keep false) d tokens w' w) →
      ∃ tokens, OccurrenceTokens env.simple d lines value tokens ∧ SubLabelledAt env.simple d z tokens w name true ∧
        (segment = true → (∀ i, ProperTag (d.getTag i)) →
          (∀ y ∈ a.targets, y.name ≠ [] ∧ tagValue (some y.name) = some y.name) →
          ∀ i ∈ tokens, tagValue (z.getTag i) = some x.name)) := by
  intro d lines value ho hsub
  have hnd0 : (beforeAnnotator ac d0).nonSpaceTokens.Nodup := (nodup_loadDoc h0 (Props.C14_aux_sameBut _ _)).2
  obtain ⟨hsame, hsubs0⟩ := searchedBy_sub keep segment (beforeAnnotator ac d0)
  have hnd : d.nonSpaceTokens.Nodup := by rw [hsame.nonSpaceTokens]; exact hnd0
  have hfree : ∀ tokens, OccurrenceTokens env.simple d lines value tokens → OccurrencesFree env.simple d tokens w := by
    intro tokens htk ranges r _ _ y hy _
    have hm : y.1 ∈ lines.flatten := occurrenceTokens_mem _ _ _ _ _ htk y.1 (List.of_mem_zip hy).1
    have hm2 : y.1 ∈ d.nonSpaceTokens := by
      apply pendingOfDoc_subset d y.1
      have e : pendingOfDoc d = untaggedLines d := rfl
      rw [e]
      have : lines.flatten.Sublist (untaggedLines d).flatten := by
        show (firstLines d a.lookahead).flatten.Sublist _
        unfold firstLines
        split
        · exact List.Sublist.refl _
        · exact sublist_flatten (List.take_sublist _ _)
      exact this.subset hm
    have hm3 : y.1 ∈ d0.allTokens := by
      rw [hsame.nonSpaceTokens, (Props.C14_aux_sameBut _ _).nonSpaceTokens] at hm2
      exact loaded_nonSpace_mem h0 hm2
    rw [hsubs0, before_sub_tag _ y.1 hm3 (loaded_no_sub_tag h0 y.1 hm3)]
    rfl
  have main : ∀ (c : MatchCfg) (z : Doc), ExactEnv env.simple c → c.useSubAnnotations = true → c.lookahead = a.lookahead →
      c.tagConfigMap = a.tagConfigMap → searchEnv env.simple c 1 = searchEnv env.simple (simpleCfg a true keep false) 1 →
      (∀ text, OccursFor env.simple (simpleCfg a true keep false) x v text → OccursFor env.simple c x v text) →
      simpleAnnotate env.simple c a.targets d = .ok z →
      ∃ tokens, OccurrenceTokens env.simple d lines value tokens ∧ SubLabelledAt env.simple d z tokens w name c.useBeginPrefix ∧
        (c.mainTags = true → (∀ i, ProperTag (d.getTag i)) →
          (∀ y ∈ a.targets, y.name ≠ [] ∧ tagValue (some y.name) = some y.name) →
          ∀ i ∈ tokens, tagValue (z.getTag i) = some x.name) := by
    intro c z hce hcu hcl hct hcs hco hz
    rw [hx] at hz ⊢
    refine C127_first_partial env.simple c hce f hlow hcu [] after x v d z hnd ?_ (fun y hy => by cases hy) hz lines
      (.inl (by rw [hcl])) (hco _ ho) sb sa name w hsubs hname ?_
    · unfold MatchCfg.tagConfig at hre ⊢
      rw [hct]
      exact hre
    · intro tokens htk
      obtain ⟨s1, s2⟩ := hsub tokens htk
      refine ⟨by rw [hcs]; exact s1, hfree tokens htk, ?_⟩
      intro n w' hm
      have := s2 n w' hm
      unfold NotTakenBy at this ⊢
      rw [hcs]
      exact this
  unfold matchOrSubTags at hz
  rcases Bool.eq_false_or_eq_true segment with hseg | hseg
  · rw [hseg, if_pos rfl] at hz
    have hd : d = beforeAnnotator ac d0 := by
      show searchedBy keep segment _ = _
      unfold searchedBy searchedDoc searchedReferences
      simp only [hseg, if_true, ite_self]
    rw [← hd] at hz
    obtain ⟨tokens, k1, k2, k3⟩ := main _ _ he rfl rfl rfl rfl (fun _ h => h) hz
    exact ⟨tokens, k1, k2, fun _ => k3 rfl⟩
  · rw [hseg, if_neg (by decide)] at hz
    have hd : d = (beforeAnnotator ac d0).allTokens.foldl (fun d i =>
        let d' := d.setTagOnly i none
        if (simpleCfg a true keep false).preserveSubAnnotations then d' else d'.clearPreservedSubTag i) (beforeAnnotator ac d0) := by
      show searchedBy keep segment _ = _
      unfold searchedBy searchedDoc searchedReferences
      cases keep <;> simp [hseg, simpleCfg]
    unfold subTagOnlyAnnotate at hz
    simp only [] at hz
    simp only [] at hd
    rw [← hd] at hz
    split at hz
    · cases hz
    · next y hy =>
      cases hz
      obtain ⟨tokens, k1, ⟨rg, q, b1, b2, b3, b4, b5, b6⟩, _⟩ := main { simpleCfg a true keep false with mainTags := false } y
        ⟨he.good, he.lsm, he.diff, he.rnd, he.re, he.thresholdPos, he.thresholdLe⟩
        rfl rfl rfl rfl (fun _ h => h) hy
      refine ⟨tokens, k1, ⟨rg, q, b1, b2, b3, b4, ?_, ?_⟩, fun h => by rw [hseg] at h; cases h⟩
      · intro u hu hov
        rw [restoreTags_sub]
        exact b5 u hu hov
      · intro u rest hu hbp
        rw [restoreTags_sub]
        exact b6 u rest hu hbp

/-- Labels which are there are not changed when sub labels are merged. -/
theorem sub_mergeGroup (group : Str → Option Str) (d : Doc) (i : Nat) (name : Str) (hname : name ≠ []) (h : tagValue (d.getSubTag i) = some name) :
    (mergeGroupTags group (some subLevel) d).getSubTag i = d.getSubTag i := by
  refine labelsIn_loop (fun st : Option Str × Doc => st.2.getSubTag i = d.getSubTag i) _ _ (fun st j _ hd => ?_) (none, d) rfl
  unfold mergeGroupStep
  split
  · exact hd
  · simp only
    split
    · exact hd
    · next hv =>
      split
      · exact hd
      · rw [getSubTag_setSubOnly]
        split
        · next hij =>
          exfalso
          subst hij
          apply hv
          unfold Doc.getTagOrPreservedValue Doc.getTagOrPreserved
          have e : st.2.getTag i (some subLevel) = d.getSubTag i := hd
          have ht : truthy (d.getSubTag i) = true := by
            cases hs : d.getSubTag i with
            | none => rw [hs] at h; cases h
            | some s =>
              rw [truthy_some]
              rintro rfl
              rw [hs] at h
              exact hname (Option.some.inj h).symm
          unfold pyOr
          rw [e, if_pos ht, stripTagPrefix_eq_tagValue, h]
          exact truthy_some.2 hname
        · exact hd

theorem subLabelledAt_mono {env : MatchEnv} {d z z' : Doc} {tokens : List Nat} {w name : Str} {bp : Bool}
    (hk : ∀ i, tagValue (z.getSubTag i) = some name → z'.getSubTag i = z.getSubTag i) (h : SubLabelledAt env d z tokens w name bp) :
    SubLabelledAt env d z' tokens w name bp := by
  obtain ⟨rg, q, b1, b2, b3, b4, b5, b6⟩ := h
  refine ⟨rg, q, b1, b2, b3, b4, fun u hu hov => ?_, fun u rest hu hbp => ?_⟩
  · rw [hk _ (b5 u hu hov)]
    exact b5 u hu hov
  · have hm : u ∈ (tokens.zip rg).filter (fun x => overlaps q.1 q.2 x.2) := by rw [hu]; exact List.mem_cons_self
    rw [hk _ (b5 u (List.mem_filter.1 hm).1 (List.mem_filter.1 hm).2)]
    exact b6 u rest hu hbp

/-- What follows matching keeps the sub labels. -/
theorem after_match_sub (env : ToolEnv) (a : ToolArgs) (segment : Bool) (t : Tool)
    (ht : t = .figure segment ∨ t = .table segment ∨ ∃ r, t = .affiliation segment r) (d d' : Doc)
    (h : annotateAll (t.annotators env a) d = .ok d') :
    ∃ z, matchOrSubTags env (simpleCfg a true true false) a.targets segment d = .ok z ∧ (∀ i, d'.getTag i = z.getTag i) ∧
      ∀ i name, name ≠ [] → tagValue (z.getSubTag i) = some name → d'.getSubTag i = z.getSubTag i := by
  cases hz : matchOrSubTags env (simpleCfg a true true false) a.targets segment d with
  | error e =>
    exfalso
    rcases ht with rfl | rfl | ⟨r, rfl⟩ <;> simp only [Tool.annotators, List.cons_append, List.nil_append, annotateAll, hz] at h <;> cases h
  | ok z =>
    refine ⟨z, rfl, ?_⟩
    rcases ht with rfl | rfl | ⟨r, rfl⟩
    · simp only [Tool.annotators, annotateAll, hz] at h
      obtain rfl := Except.ok.inj h
      exact ⟨fun _ => rfl, fun _ _ _ _ => rfl⟩
    · simp only [Tool.annotators, annotateAll, hz] at h
      obtain rfl := Except.ok.inj h
      exact ⟨fun _ => rfl, fun _ _ _ _ => rfl⟩
    · cases r with
      | false =>
        simp only [Tool.annotators, removeUntaggedIf, List.cons_append, List.nil_append, annotateAll, hz] at h
        obtain rfl := Except.ok.inj h
        exact ⟨fun i => (subOnly_mergeGroupTags addressGroup z).2 i _ (by decide) (by decide), fun i name hn hv => sub_mergeGroup _ _ i name hn hv⟩
      | true =>
        simp only [Tool.annotators, removeUntaggedIf, List.cons_append, List.nil_append, annotateAll, hz, total, if_true] at h
        obtain rfl := Except.ok.inj h
        exact ⟨fun i => (subOnly_mergeGroupTags addressGroup z.removeAllUntagged).2 i _ (by decide) (by decide),
          fun i name hn hv => sub_mergeGroup _ z.removeAllUntagged i name hn hv⟩

/-- **C127.** The tools for figures, tables and affiliations give the sub label to the value of a sub annotation where it occurs
literally in the occurrence of the value of the first target annotation: each token of it has the sub label in the
document which is written, the first one with the begin prefix. When segmenting, the tokens of the occurrence of the
value of the target annotation have its label as well. -/
theorem C127_tool_partial (env : ToolEnv) (a : ToolArgs) (segment : Bool) (t : Tool) (ht : t = .figure segment ∨ t = .table segment ∨ ∃ r, t = .affiliation segment r)
    (cfg : DocCfg) (passes : Doc → Except Err Bool) (root root' : Elem) (target path : Str) (failed : Option Str)
    (he : ExactEnv env.simple (simpleCfg a true true false)) (f : Char → Char) (hlow : ∀ s, env.simple.lower s = s.map f)
    (x : Target) (after : List Target) (v : Str) (hx : a.targets = x :: after)
    (hre : truthy ((simpleCfg a true true false).tagConfig x.name).matchPrefixRegex = false)
    (sb sa : List (Str × TargetValue)) (name w : Str) (hsubs : x.subs = sb ++ (name, .one w) :: sa)
    (hname : name ≠ [] ∧ tagValue (some name) = some name)
    (h : t.run env a cfg passes root target failed = .ok (some (path, root'))) :
    ∃ d0 d', loadDoc { cfg with preserveTags := true } root = .ok d0 ∧
      annotateAll (t.annotators env a) (beforeAnnotator (t.annotateCfg a) d0) = .ok d' ∧ docRoot cfg root d' = .ok root' ∧
      let d := searchedDoc segment (beforeAnnotator (t.annotateCfg a) d0)
      let lines := firstLines d a.lookahead
      let value := normaliseStr env.simple.lower v
      (OccursFor env.simple (simpleCfg a true true false) x v (seqsText (matchSeqEnv env.simple) d lines) →
        (∀ tokens, OccurrenceTokens env.simple d lines value tokens →
          OccursWithin (searchEnv env.simple (simpleCfg a true true false) 1) (env.simple.lower (matchText env.simple.cc d tokens)) (env.simple.lower w) ∧
          ∀ n w', (n, .one w') ∈ sb → NotTakenBy env.simple (simpleCfg a true true false) d tokens w' w) →
        ∃ tokens, OccurrenceTokens env.simple d lines value tokens ∧ SubLabelledAt env.simple d d' tokens w name true ∧
          (segment = true → (∀ i, ProperTag (d.getTag i)) →
            (∀ y ∈ a.targets, y.name ≠ [] ∧ tagValue (some y.name) = some y.name) →
            ∀ i ∈ tokens, tagValue (d'.getTag i) = some x.name)) := by
  obtain ⟨d0, d', h0, h1, h2, _⟩ := run_steps h
  refine ⟨d0, d', h0, h1, h2, ?_⟩
  obtain ⟨z, hz, hmain, hkeep⟩ := after_match_sub env a segment t ht _ d' h1
  intro d lines value ho hsub
  obtain ⟨tokens, k1, k2, k3⟩ := matchOrSub_placed_by true env a segment _ _ root d0 z h0 he f hlow x after v hx hre sb sa name w hsubs hname hz ho hsub
  refine ⟨tokens, k1, subLabelledAt_mono (fun i hi => hkeep i name hname.1 hi) k2, fun h1 h2 h3 i hi => ?_⟩
  rw [hmain]
  exact k3 h1 h2 h3 i hi

/-! ### Examples -/

theorem occurrenceTokens_between (env : MatchEnv) (d : Doc) (seqs : List (List Nat)) (hne : ∀ s ∈ seqs, s ≠ []) (value : Str) (tokens : List Nat)
    (h : OccurrenceTokens env d seqs value tokens) :
    ∃ r : Nat × Nat, OccurrenceAt (seqsText (matchSeqEnv env) d seqs) value r ∧ tokens = seqTokensBetween (matchSeqEnv env) d r.1 r.2 seqs := by
  obtain ⟨ranges, r, h1, h2, h3⟩ := h
  obtain ⟨ranges', h1', hb⟩ := C40_tokens_between (matchSeqEnv env) d seqs hne
  obtain rfl := laidOut_unique h1 h1'
  exact ⟨r, h2, by rw [h3, hb]⟩

instance (text value : Str) (r : Nat × Nat) : Decidable (OccurrenceAt text value r) := by unfold OccurrenceAt; infer_instance

def exSubWithin : Target := ⟨c!"figure", .one c!"on some title", [(c!"figure-label", .one c!"on"), (c!"figure-title", .one c!"some title")]⟩

/-- The target annotation, and its second sub annotation, meet the assumptions. -/
example : let d := exMatchDoc
    let cfg : MatchCfg := { useSubAnnotations := true }
    (OccursFor exMatchEnv cfg exSubWithin c!"on some title" (seqsText (matchSeqEnv exMatchEnv) d (firstLines d cfg.lookahead))) ∧
    ∀ tokens, OccurrenceTokens exMatchEnv d (firstLines d cfg.lookahead) (normaliseStr exMatchEnv.lower c!"on some title") tokens →
      SubOccurs exMatchEnv cfg d tokens [(c!"figure-label", .one c!"on")] c!"some title" := by
  intro d cfg
  constructor
  · refine ⟨rfl, by decide, .inl (by decide), .inr ⟨by decide +kernel, by decide +kernel, by decide +kernel, by decide +kernel⟩, ?_⟩
    intro _
    exact onlyLiteral_short _ _ _ (by decide +kernel) (by decide +kernel)
  · intro tokens ht
    obtain ⟨r, h1, h2⟩ := occurrenceTokens_between exMatchEnv d _ (firstLines_ne d _) _ _ ht
    have hall : ∀ a < 21, ∀ b < 21, OccurrenceAt (seqsText (matchSeqEnv exMatchEnv) exMatchDoc (firstLines exMatchDoc 200))
        (normaliseStr exMatchEnv.lower c!"on some title") (a, b) →
        seqTokensBetween (matchSeqEnv exMatchEnv) exMatchDoc (a : Nat) (b : Nat) (firstLines exMatchDoc 200) = [0, 1, 2] := by decide +kernel
    have hlen : (seqsText (matchSeqEnv exMatchEnv) d (firstLines d cfg.lookahead)).length = 20 := by decide +kernel
    have := h1.1
    have := h1.2.1
    have htk := hall r.1 (by omega) r.2 (by omega) h1
    rw [htk] at h2
    subst h2
    have hmt : matchText exMatchEnv.cc d [0, 1, 2] = c!"on some title" := by decide +kernel
    obtain ⟨ranges0, hp0, hb0⟩ := matchPlaces_exist exMatchEnv.cc d [0, 1, 2] (by decide)
    refine ⟨?_, ?_, ?_⟩
    · rw [hmt]
      refine .inr ⟨by decide +kernel, by decide +kernel, by decide +kernel, ?_⟩
      exact onlyLiteral_short _ _ _ (by decide +kernel) (by decide +kernel)
    · intro ranges q _ _ x hx _
      have hx1 : x.1 ∈ [0, 1, 2] := (List.of_mem_zip hx).1
      have : ∀ i ∈ [0, 1, 2], truthy (exMatchDoc.getSubTag i) = false := by decide +kernel
      exact this x.1 hx1
    · intro n w hm ranges q q' hp ho hq x hx hov
      obtain rfl := laidOut_unique hp hp0
      simp only [List.mem_singleton, Prod.mk.injEq, TargetValue.one.injEq] at hm
      obtain ⟨rfl, rfl⟩ := hm
      rw [hmt] at ho hq
      have hq2 : q' = (0, 2) := by
        have : (searchAllRanges (searchEnv exMatchEnv cfg 1) (exMatchEnv.lower c!"on some title") (exMatchEnv.lower c!"on")).1 = [(0, 2)] := by decide +kernel
        rw [this] at hq
        simpa using hq
      subst hq2
      cases hc : overlaps (0 : Nat) (2 : Nat) x.2 with
      | false => rfl
      | true =>
        exfalso
        have m1 : x.1 ∈ seqTokensBetween ⟨exMatchEnv.cc, id⟩ d (0 : Nat) (2 : Nat) [[0, 1, 2]] := by
          rw [hb0 (0, 2)]
          exact List.mem_map.2 ⟨x, List.mem_filter.2 ⟨hx, hc⟩, rfl⟩
        have m2 : x.1 ∈ seqTokensBetween ⟨exMatchEnv.cc, id⟩ d q.1 q.2 [[0, 1, 2]] := by
          rw [hb0 q]
          exact List.mem_map.2 ⟨x, List.mem_filter.2 ⟨hx, hov⟩, rfl⟩
        have hdis : ∀ a < 14, ∀ b < 14, OccurrenceAt (exMatchEnv.lower c!"on some title") (exMatchEnv.lower c!"some title") (a, b) →
            seqTokensBetween ⟨exMatchEnv.cc, id⟩ exMatchDoc (a : Nat) (b : Nat) [[0, 1, 2]] = [1, 2] := by decide +kernel
        have h13 : (exMatchEnv.lower c!"on some title").length = 13 := rfl
        have := ho.1
        have := ho.2.1
        have e2 := hdis q.1 (by omega) q.2 (by omega) ho
        have e1 : seqTokensBetween ⟨exMatchEnv.cc, id⟩ exMatchDoc (0 : Nat) (2 : Nat) [[0, 1, 2]] = [0] := by decide +kernel
        change x.1 ∈ seqTokensBetween ⟨exMatchEnv.cc, id⟩ exMatchDoc (0 : Nat) (2 : Nat) [[0, 1, 2]] at m1
        change x.1 ∈ seqTokensBetween ⟨exMatchEnv.cc, id⟩ exMatchDoc q.1 q.2 [[0, 1, 2]] at m2
        rw [e1] at m1
        rw [e2] at m2
        simp only [List.mem_singleton] at m1
        rw [m1] at m2
        revert m2
        decide

/-- The sub labels. -/
example : ∃ d', simpleAnnotate exMatchEnv { useSubAnnotations := true } [exSubWithin] exMatchDoc = .ok d' ∧
    d'.nonSpaceTokens.map (fun i => d'.getSubTag i) =
      [some c!"b-figure-label", some c!"b-figure-title", some c!"i-figure-title", none, none, none] :=
  exists_of_okAnd (by decide +kernel)

/-- The same by the tool for figures, with and without segmenting them. -/
example : ∀ segment, ∃ d', loadAndAnnotate exToolEnv { targets := [exSubWithin] } (.figure segment) exToolCfg exToolRoot = .ok d' ∧
    d'.nonSpaceTokens.map (fun i => d'.getSubTag i) =
      [some c!"b-figure-label", some c!"b-figure-title", some c!"i-figure-title", none, none, none] := by
  intro segment
  cases segment
  · exact exists_of_okAnd (by decide +kernel)
  · exact exists_of_okAnd (by decide +kernel)

/-- The same by the tool for affiliations; text with a label which follows the city, be it another
one, becomes part of the address. -/
example : ∀ segment, ∃ d', loadAndAnnotate exToolEnv
      { targets := [⟨c!"author_aff", .one c!"on some title", [(c!"author_aff-address-city", .one c!"some")]⟩] } (.affiliation segment false)
      exToolCfg exToolRoot = .ok d' ∧
    d'.nonSpaceTokens.map (fun i => d'.getSubTag i) =
      (let following := if segment then some c!"i-author_aff-address" else none
      [none, some c!"b-author_aff-address-city", following, none, following, none]) := by
  intro segment
  cases segment
  · exact exists_of_okAnd (by decide +kernel)
  · exact exists_of_okAnd (by decide +kernel)

/-! ### Letters which become longer -/

/-- `str.lower` for a capital I with a dot (which becomes two characters) and other characters, which stay. -/
def exLower (s : Str) : Str := s.flatMap (fun c => if c = '\u0130' then ['i', '\u0307'] else [c])

def exLowerEnv : MatchEnv := { exMatchEnv with lower := exLower }

/-- One line. -/
def exLowerDoc : Doc := Doc.ofLines [[⟨c!"\u0130\u0130\u0130\u0130\u0130", false, [], none⟩, ⟨c!"alpha", false, [], none⟩, ⟨c!"omega", false, [], none⟩]]

/-- The sub label is given to another word than the one which is the value, if letters before it become longer as
lower case letters: the value is searched in the text in lower case, and the tokens are taken from the text as it is. -/
theorem C127_shifted :
    OccursWithin (searchEnv exLowerEnv {} 1) (exLower (matchText asciiClass exLowerDoc [0, 1, 2])) (exLower c!"alpha") ∧
    ∃ d', simpleAnnotate exLowerEnv { useSubAnnotations := true }
        [⟨c!"figure", .one c!"\u0130\u0130\u0130\u0130\u0130 alpha omega", [(c!"figure-label", .one c!"alpha")]⟩] exLowerDoc = .ok d' ∧
      d'.nonSpaceTokens.map (fun i => ((d'.tok i).text, d'.getTag i, d'.getSubTag i)) =
        [(c!"\u0130\u0130\u0130\u0130\u0130", some c!"b-figure", none), (c!"alpha", some c!"i-figure", none),
          (c!"omega", some c!"i-figure", some c!"b-figure-label")] := by
  refine ⟨.inr ⟨by decide +kernel, by decide +kernel, by decide +kernel, ?_⟩, exists_of_okAnd (by decide +kernel)⟩
  exact onlyLiteral_short _ _ _ (by decide +kernel) (by decide +kernel)

end Verif
