/-
C126: a value which occurs literally is labelled where it occurs.
-/
import Verif.Lemmas.ExactPlace
import Verif.Lemmas.TokenCover
import Verif.Lemmas.Justified
import Verif.Props.SimpleMatching
import Verif.Props.ToolLabels

namespace Verif
open Spec

theorem literal_place (env : MatchEnv) (cfg : MatchCfg) (he : ExactEnv env cfg) (m : Int) (v text : Str)
    (h : OccursText env cfg v text) (hc : AsOneChunk env cfg m v text) :
    ∃ r : Nat × Nat, findChunks env cfg m text v = .ok [r] ∧ r.1 < r.2 ∧ r.2 ≤ text.length ∧
      noSpace (slice text r.1 (r.2 - r.1)) = noSpace (normaliseStr env.lower v) := by
  obtain ⟨hlen, ho, hu⟩ := h
  obtain ⟨_, h2, _⟩ := findChunks_eq env cfg m text v (by omega)
  obtain ⟨p1, p2⟩ := rangeChunks_place (searchEnv env cfg m) ⟨he.good.lsm, he.good.diff⟩ he.lsm he.diff he.thresholdLe
    he.rnd (haystackOf cfg text (normaliseStr env.lower v)) (normaliseStr env.lower v)
  rw [haystackOf_length] at p1 p2
  rcases ho with ⟨h1, h3, h4⟩ | ⟨h1, h3, h4, h5⟩
  · obtain ⟨q, e, hq, hs⟩ := p1 h1 (by simp only [searchEnv]; omega) (by
      apply words_infix
      unfold haystackOf
      rw [if_pos h3, replaceAll_char]
      exact h4)
    have hl0 : (normaliseStr env.lower v).length ≠ 0 := by simpa using h1
    refine ⟨_, h2 _ [] e, by simp only []; omega, hq, ?_⟩
    simp only []
    rw [show q + (normaliseStr env.lower v).length - q = (normaliseStr env.lower v).length by omega]
    conv => rhs; rw [← hs]
    unfold haystackOf
    rw [if_pos h3, replaceAll_char, slice_map, noSpace_newlines]
  · have eh : haystackOf cfg text (normaliseStr env.lower v) = text := by
      unfold haystackOf
      rw [if_neg (by omega)]
    rw [eh] at p2
    obtain ⟨r, e, hr⟩ := p2 h3 (by simp only [searchEnv]; omega) h5 (hu h1) (by
      rcases hc with hc | hc | hc
      · exact .inl hc
      · omega
      · exact .inr hc)
    rw [eh] at h2
    exact ⟨r, h2 r [] e, hr⟩

theorem literal_alternatives (env : MatchEnv) (cfg : MatchCfg) (he : ExactEnv env cfg) (m : Int) (alternatives : Dict (List Str))
    (v text : Str) (h : OccursText env cfg v text) (hc : AsOneChunk env cfg m v text) :
    ∃ r : Nat × Nat, findWithAlternatives env cfg m alternatives text v = .ok [r] ∧ r.1 < r.2 ∧ r.2 ≤ text.length ∧
      noSpace (slice text r.1 (r.2 - r.1)) = noSpace (normaliseStr env.lower v) := by
  obtain ⟨r, e, hr⟩ := literal_place env cfg he m v text h hc
  refine ⟨r, ?_, hr⟩
  have := (C63_first_spelling env cfg m alternatives text v).1 0 v rfl (by intro j s hj; omega) (by rw [e]; simp)
  rw [this, e]

/-- The range found for a value which occurs literally is that of an occurrence: its text is the value, up to
white space. -/
theorem C126_range (env : MatchEnv) (cfg : MatchCfg) (he : ExactEnv env cfg) (t : Target) (v text : Str)
    (h : OccursFor env cfg t v text) :
    ∃ r : Nat × Nat, matchingRanges env cfg text t = .ok [r] ∧ r.1 < r.2 ∧ r.2 ≤ text.length ∧
      noSpace (slice text r.1 (r.2 - r.1)) = noSpace (normaliseStr env.lower v) := by
  obtain ⟨hv, hlen, hc, ho, hu⟩ := h
  obtain ⟨r, e, hr⟩ := literal_alternatives env cfg he (cfg.tagConfig t.name).maxChunks (cfg.tagConfig t.name).alternativeSpellings v text ⟨hlen, ho, hu⟩ hc
  refine ⟨r, ?_, hr⟩
  unfold matchingRanges
  simp only [hv]
  exact e

/-- A value which may be found in several parts is not, if the text without white space has at most 1000 characters, or
if the value occurs only within the first 750 ones. -/
theorem C126_one_chunk (env : MatchEnv) (cfg : MatchCfg) (he : ExactEnv env cfg) (maxChunks : Int) (v text : Str)
    (hne : noSpace (normaliseStr env.lower v) ≠ []) (ho : noSpace (normaliseStr env.lower v) <:+: noSpace text)
    (h : (noSpace text).length ≤ 1000 ∨
      ∀ p, slice (noSpace text) p (noSpace (normaliseStr env.lower v)).length = noSpace (normaliseStr env.lower v) → p ≤ 750) :
    AsOneChunk env cfg maxChunks v text := by
  rcases h with h | h
  · exact .inr (.inr (acceptedFirst_short _ he.lsm he.thresholdLe _ _ h hne ho))
  · exact .inr (.inr (acceptedFirst_early _ he.lsm he.thresholdLe he.rnd _ _ hne ho h))

/-- Tokens of the range, with what the expression for a prefix adds, have the tag of the target annotation afterwards. -/
theorem applyRange_labelled (env : MatchEnv) (cfg : MatchCfg) (hm : cfg.mainTags = true)
    (seqs : List (List Nat)) (t : Target) (hname : t.name ≠ []) (r : Nat × Nat) (d d' : Doc)
    (hne : ∀ s ∈ seqs, s ≠ []) (hun : ∀ i ∈ seqs.flatten, truthy (d.getTag i) = false)
    (h : applyRanges env (matchSeqEnv env) cfg seqs t d [r] = .ok d') :
    ∃ ranges r', LaidOut (seqsText (matchSeqEnv env) d seqs)
        (seqs.flatten.map (fun i => (matchSeqEnv env).filter (d.getText (matchSeqEnv env).cc i))) (tokenGaps d seqs) ranges ∧
      applyPrefixRegex env cfg (seqsText (matchSeqEnv env) d seqs) r t = .ok r' ∧
      ∀ x ∈ seqs.flatten.zip ranges, overlaps r'.1 r'.2 x.2 = true → ∃ k, d'.getTag x.1 = indexTag cfg t.name k := by
  obtain ⟨ranges, hlo, ht⟩ := C65_match_tagged env (matchSeqEnv env) cfg hm seqs t hname [r] d d' hne h
  obtain ⟨r', hp, h3, _⟩ := ht r List.mem_cons_self
  refine ⟨ranges, r', hlo, hp, ?_⟩
  intro x hx ho
  have htr := h3 x hx ho
  rcases (applyRanges_grows env (matchSeqEnv env) cfg seqs t [r] d d' h).tag x.1 with e | ⟨_, _, n, hn, k, e⟩
  · rw [e, hun x.1 (List.of_mem_zip hx).1] at htr
    cases htr
  · rw [List.mem_singleton] at hn
    subst hn
    exact ⟨k, e⟩

/-- What an expression for a prefix adds is in front of the range. -/
theorem applyPrefixRegex_wider {env : MatchEnv} {cfg : MatchCfg} (hre : ∀ p s k, env.reSearch p s = .ok (some k) → k ≤ s.length)
    {text : Str} {r r' : Nat × Nat} {t : Target} (hp : applyPrefixRegex env cfg text r t = .ok r') : r'.1 ≤ r.1 ∧ r'.2 = r.2 := by
  unfold applyPrefixRegex at hp
  simp only [] at hp
  split at hp
  · split at hp
    · cases hp
    · cases hp; exact ⟨Nat.le_refl _, rfl⟩
    · next k hk =>
      cases hp
      have := hre _ _ _ hk
      rw [List.length_take] at this
      exact ⟨by simp only []; omega, rfl⟩
  · cases hp; exact ⟨Nat.le_refl _, rfl⟩

theorem processTarget_range (env : MatchEnv) (cfg : MatchCfg) (pending : List (List Nat)) (st st' : MatchState) (t : Target)
    (seqs : List (List Nat)) (r : Nat × Nat)
    (hs : seqs = pendingSequences st.doc st.current (some cfg.lookahead) ∨
      (matchingRanges env cfg (seqsText (matchSeqEnv env) st.doc (pendingSequences st.doc st.current (some cfg.lookahead))) t = .ok [] ∧
        st.block ≠ pyOr (cfg.tagConfig t.name).blockName (some c!"default") ∧ seqs = pendingSequences st.doc pending none))
    (hr : matchingRanges env cfg (seqsText (matchSeqEnv env) st.doc seqs) t = .ok [r])
    (h : processTarget env cfg pending st t = .ok st') :
    applyRanges env (matchSeqEnv env) cfg seqs t st.doc [r] = .ok st'.doc := by
  unfold processTarget at h
  simp only [] at h
  rcases hs with rfl | ⟨h0, hb, rfl⟩
  · rw [hr] at h
    simp only [] at h
    split at h
    · cases h
    · next d hd => cases h; exact hd
  · rw [h0] at h
    simp only [] at h
    rw [if_neg hb, hr] at h
    simp only [] at h
    split at h
    · cases h
    · split at h
      · cases h
      · next d hd => cases h; exact hd

theorem extendDoc_keeps (cfg : MatchCfg) (d : Doc) (hnd : d.nonSpaceTokens.Nodup) (hp : ∀ i, ProperTag (d.getTag i))
    (i : Nat) (hne : d.getTag i ≠ none) : tagValue ((extendDoc cfg d).getTag i) = tagValue (d.getTag i) := by
  obtain ⟨_, _, c3, c4⟩ := C22_document cfg d hnd hp
  by_cases hi : i ∈ d.nonSpaceTokens
  · obtain ⟨l, hl, hil⟩ := List.mem_flatMap.1 hi
    obtain ⟨k, hk, rfl⟩ := List.getElem_of_mem hil
    obtain ⟨t', ht', hv⟩ := (C22_keeps_values (extendCfg cfg) _ (fun t ht => by
        obtain ⟨j, _, rfl⟩ := List.mem_map.1 ht
        exact hp j)).2 k (d.getTag l.nonSpace[k])
      (by rw [List.getElem?_map, List.getElem?_eq_getElem hk]; rfl) hne
    rw [← c4 l hl, List.getElem?_map, List.getElem?_eq_getElem hk] at ht'
    cases ht'
    exact hv
  · rw [c3 i hi]

theorem processTargets_append (env : MatchEnv) (cfg : MatchCfg) (pending : List (List Nat)) (st : MatchState) (a b : List Target) :
    processTargets env cfg pending st (a ++ b) =
      match processTargets env cfg pending st a with
      | .error e => .error e
      | .ok st' => processTargets env cfg pending st' b := by
  induction a generalizing st with
  | nil => rfl
  | cons t a ih =>
    rw [List.cons_append, processTargets.eq_2, processTargets.eq_2]
    cases processTarget env cfg pending st t with
    | error e => rfl
    | ok st' => exact ih st'

theorem in_turn_prefix (env : MatchEnv) (cfg : MatchCfg) (hm : cfg.mainTags = true)
    (before after : List Target) (t : Target) (d d' : Doc)
    (hnd : d.nonSpaceTokens.Nodup) (hp : ∀ i, ProperTag (d.getTag i))
    (hn : ∀ t' ∈ before ++ t :: after, t'.name ≠ [] ∧ tagValue (some t'.name) = some t'.name)
    (h : simpleAnnotate env cfg (before ++ t :: after) d = .ok d')
    (st : MatchState) (hst : processTargets env cfg (pendingOfDoc d) ⟨d, pendingOfDoc d, none, []⟩ before = .ok st)
    (seqs : List (List Nat))
    (hs : seqs = pendingSequences st.doc st.current (some cfg.lookahead) ∨
      (matchingRanges env cfg (seqsText (matchSeqEnv env) st.doc (pendingSequences st.doc st.current (some cfg.lookahead))) t = .ok [] ∧
        st.block ≠ pyOr (cfg.tagConfig t.name).blockName (some c!"default") ∧
        seqs = pendingSequences st.doc (pendingOfDoc d) none))
    (hne : ∀ s ∈ seqs, s ≠ [])
    (r : Nat × Nat) (hr : matchingRanges env cfg (seqsText (matchSeqEnv env) st.doc seqs) t = .ok [r]) :
    ∃ r', applyPrefixRegex env cfg (seqsText (matchSeqEnv env) st.doc seqs) r t = .ok r' ∧
      LabelledRange env st.doc d' seqs r' t.name := by
  obtain ⟨d1, left, hl, rfl⟩ := C19_aux env cfg _ d d' h
  have htn := hn t (by simp)
  -- the first round
  have hl' := hl
  rw [show (before ++ t :: after).length = before.length + after.length + 1 by simp; omega] at hl'
  have hcons : ∃ t0 ts0, before ++ t :: after = t0 :: ts0 := by
    cases before with
    | nil => exact ⟨_, _, rfl⟩
    | cons a b => exact ⟨_, _, rfl⟩
  obtain ⟨t0, ts0, h0⟩ := hcons
  have hround : ∃ dR rem, processTargetAnnotations env cfg d (before ++ t :: after) = .ok (dR, rem) ∧
      Grows cfg dR.nonSpaceTokens (targetNames (before ++ t :: after)) (targetSubNames (before ++ t :: after)) dR d1 := by
    rw [h0] at hl' ⊢
    unfold annotateLoop at hl'
    split at hl'
    · cases hl'
    · next dR rem hR =>
      refine ⟨dR, rem, hR, ?_⟩
      split at hl'
      · cases hl'; exact .refl _ _ _ _ _
      · have hsub := (processTargetAnnotations_grows env cfg d dR _ rem hR).2
        have := (annotateLoop_grows env cfg _ dR d1 rem left hl').1
        exact this.mono (fun _ h => h) (targetNames_subset hsub) (targetSubNames_subset hsub)
  obtain ⟨dR, rem, hR, gR⟩ := hround
  unfold processTargetAnnotations at hR
  simp only [] at hR
  rw [processTargets_append, hst] at hR
  simp only [] at hR
  split at hR
  · cases hR
  · next stE hE =>
    cases hR
    unfold processTargets at hE
    split at hE
    · cases hE
    · next st1 h1 =>
      have hcur0 := (processTargets_grows env cfg (pendingOfDoc d) before ⟨d, pendingOfDoc d, none, []⟩ st (List.Sublist.refl _) hst).1
      have hcurS : st.current.flatten.Sublist (pendingOfDoc d).flatten := by
        have key : ∀ (ts : List Target) (a b : MatchState), a.current.flatten.Sublist (pendingOfDoc d).flatten →
            processTargets env cfg (pendingOfDoc d) a ts = .ok b → b.current.flatten.Sublist (pendingOfDoc d).flatten := by
          intro ts
          induction ts with
          | nil => intro a b ha hb; cases hb; exact ha
          | cons x ts ih =>
            intro a b ha hb
            unfold processTargets at hb
            split at hb
            · cases hb
            · next c hc => exact ih c b (processTarget_grows env cfg _ a c x ha hc).2.1 hb
        exact key before _ st (List.Sublist.refl _) hst
      have happ := processTarget_range env cfg (pendingOfDoc d) st st1 t seqs r hs hr h1
      have hun : ∀ i ∈ seqs.flatten, truthy (st.doc.getTag i) = false := by
        rcases hs with rfl | ⟨_, _, rfl⟩
        · exact pendingSequences_flatten_untagged _ _ _
        · exact pendingSequences_flatten_untagged _ _ _
      obtain ⟨ranges, r', hlo, hpre, hlab⟩ := applyRange_labelled env cfg hm seqs t htn.1 r st.doc st1.doc hne hun happ
      have hc1 := (processTarget_grows env cfg _ st st1 t hcurS h1).2.1
      have gE := (processTargets_grows env cfg (pendingOfDoc d) after st1 stE hc1 hE).1
      refine ⟨r', hpre, ranges, hlo, ?_⟩
      intro x hx hov
      obtain ⟨k, hk⟩ := hlab x hx hov
      have hval : stripTagPrefix (indexTag cfg t.name k) = some t.name := indexTag_strip cfg t.name k htn.1 htn.2
      have htru : truthy (indexTag cfg t.name k) = true := by
        cases hi : indexTag cfg t.name k with
        | none => rw [hi] at hval; cases hval
        | some s =>
          rw [truthy_some]
          rintro rfl
          rw [hi] at hval
          exact htn.1 (Option.some.inj hval).symm
      have e2 : stE.doc.getTag x.1 = indexTag cfg t.name k := by
        rcases gE.tag x.1 with e | ⟨e, _⟩
        · rw [e, hk]
        · rw [hk, htru] at e; cases e
      have e3 : d1.getTag x.1 = indexTag cfg t.name k := by
        rcases gR.tag x.1 with e | ⟨e, _⟩
        · rw [e, e2]
        · rw [e2, htru] at e; cases e
      have hv1 : tagValue (d1.getTag x.1) = some t.name := by rw [e3, ← stripTagPrefix_eq_tagValue, hval]
      split
      · have g := (annotateLoop_grows env cfg _ d d1 _ left hl).1
        rw [extendDoc_keeps cfg d1 (by rw [g.same.nonSpaceTokens]; exact hnd) (g.proper ?_ hp) x.1 ?_]
        · exact hv1
        · intro n hmn
          obtain ⟨t', ht', rfl⟩ := List.mem_map.1 hmn
          intro s hs'
          cases hs'
          exact ⟨(hn t' ht').1, by rw [(hn t' ht').2]; simpa using (hn t' ht').1⟩
        · rw [e3]
          intro hnone
          rw [hnone] at htru
          cases htru
      · exact hv1

theorem in_turn_range (env : MatchEnv) (cfg : MatchCfg) (he : ExactEnv env cfg) (hm : cfg.mainTags = true)
    (before after : List Target) (t : Target) (d d' : Doc)
    (hnd : d.nonSpaceTokens.Nodup) (hp : ∀ i, ProperTag (d.getTag i))
    (hn : ∀ t' ∈ before ++ t :: after, t'.name ≠ [] ∧ tagValue (some t'.name) = some t'.name)
    (h : simpleAnnotate env cfg (before ++ t :: after) d = .ok d')
    (st : MatchState) (hst : processTargets env cfg (pendingOfDoc d) ⟨d, pendingOfDoc d, none, []⟩ before = .ok st)
    (seqs : List (List Nat))
    (hs : seqs = pendingSequences st.doc st.current (some cfg.lookahead) ∨
      (matchingRanges env cfg (seqsText (matchSeqEnv env) st.doc (pendingSequences st.doc st.current (some cfg.lookahead))) t = .ok [] ∧
        st.block ≠ pyOr (cfg.tagConfig t.name).blockName (some c!"default") ∧
        seqs = pendingSequences st.doc (pendingOfDoc d) none))
    (hne : ∀ s ∈ seqs, s ≠ [])
    (r : Nat × Nat) (hr : matchingRanges env cfg (seqsText (matchSeqEnv env) st.doc seqs) t = .ok [r]) :
    LabelledRange env st.doc d' seqs r t.name := by
  obtain ⟨r', hpre, ranges, hlo, hlab⟩ := in_turn_prefix env cfg hm before after t d d' hnd hp hn h st hst seqs hs hne r hr
  obtain ⟨h1, h2⟩ := applyPrefixRegex_wider he.re hpre
  refine ⟨ranges, hlo, fun x hx hov => hlab x hx ?_⟩
  unfold overlaps at hov ⊢
  rw [h2]
  simp only [Bool.and_eq_true, decide_eq_true_eq] at hov ⊢
  omega

/-- A value which occurs literally is labelled where it occurs, when its turn comes: `st` is the state after the
target annotations before it. The text is that of the tokens which have no label by then, within the lookahead,
or in the whole document if nothing is found there (and the document was not searched for the same block
before). -/
theorem C126_in_turn (env : MatchEnv) (cfg : MatchCfg) (he : ExactEnv env cfg) (hm : cfg.mainTags = true)
    (before after : List Target) (t : Target) (v : Str) (d d' : Doc)
    (hnd : d.nonSpaceTokens.Nodup) (hp : ∀ i, ProperTag (d.getTag i))
    (hn : ∀ t' ∈ before ++ t :: after, t'.name ≠ [] ∧ tagValue (some t'.name) = some t'.name)
    (h : simpleAnnotate env cfg (before ++ t :: after) d = .ok d')
    (st : MatchState) (hst : processTargets env cfg (pendingOfDoc d) ⟨d, pendingOfDoc d, none, []⟩ before = .ok st)
    (seqs : List (List Nat))
    (hs : seqs = pendingSequences st.doc st.current (some cfg.lookahead) ∨
      (matchingRanges env cfg (seqsText (matchSeqEnv env) st.doc (pendingSequences st.doc st.current (some cfg.lookahead))) t = .ok [] ∧
        st.block ≠ pyOr (cfg.tagConfig t.name).blockName (some c!"default") ∧
        seqs = pendingSequences st.doc (pendingOfDoc d) none))
    (hne : ∀ s ∈ seqs, s ≠ [])
    (ho : OccursFor env cfg t v (seqsText (matchSeqEnv env) st.doc seqs)) :
    LabelledAt env st.doc d' seqs (normaliseStr env.lower v) t.name := by
  obtain ⟨r, hr, hr1, hr2, hr3⟩ := C126_range env cfg he t v _ ho
  obtain ⟨ranges, hlo, hlab⟩ := in_turn_range env cfg he hm before after t d d' hnd hp hn h st hst seqs hs hne r hr
  exact ⟨ranges, r, hlo, hr1, hr2, hr3, hlab⟩

/-- The labelled tokens spell the value, if there is nothing but spaces, tabs and line feeds between tokens. -/
theorem C126_spelled (env : MatchEnv) (d d' : Doc) (seqs : List (List Nat)) (value label : Str)
    (hg : ∀ g ∈ tokenGaps d seqs, noSpace g = []) (h : LabelledAt env d d' seqs value label) :
    SpelledBy env d d' seqs value label := by
  obtain ⟨ranges, r, hlo, hr1, _, hr3, hlab⟩ := h
  obtain ⟨m, n, h1, h2⟩ := covers_from _ r.1 r.2 hr1 _ _ _ 0 (laidFrom_zero hlo) hg (Nat.zero_le _)
  rw [hr3] at h2
  refine ⟨(seqs.flatten.drop m).take n, (List.take_prefix _ _).isInfix.trans (List.drop_suffix _ _).isInfix, ?_, ?_⟩
  · intro i hi
    obtain ⟨k, hk, rfl⟩ := List.getElem_of_mem hi
    have hlen : ranges.length = seqs.flatten.length := by rw [hlo.length, List.length_map]
    rw [List.length_take, List.length_drop] at hk
    rw [List.getElem_take, List.getElem_drop]
    have hmk : m + k < ranges.length := by omega
    refine hlab (seqs.flatten[m + k]'(by omega), ranges[m + k]) ?_ (h1 _ ?_)
    · rw [List.mem_iff_getElem?]
      exact ⟨m + k, by rw [List.getElem?_zip_eq_some]; exact ⟨List.getElem?_eq_getElem _, List.getElem?_eq_getElem _⟩⟩
    · rw [List.mem_iff_getElem?]
      refine ⟨k, ?_⟩
      rw [List.getElem?_take_of_lt (by omega), List.getElem?_drop, List.getElem?_eq_getElem hmk]
  · rw [← List.map_drop, ← List.map_take, ← List.flatMap_def] at h2
    exact h2

theorem pendingSequences_self (d : Doc) : pendingSequences d (pendingOfDoc d) none = untaggedLines d := by
  have e : pendingOfDoc d = untaggedLines d := rfl
  rw [e]
  have key : ∀ s ∈ untaggedLines d, untaggedSubSequences d s = [s] := by
    intro s hs
    unfold untaggedLines at hs
    obtain ⟨l, _, rfl⟩ := List.mem_map.1 (List.mem_filter.1 hs).1
    unfold untaggedSubSequences
    simp only []
    rw [if_pos]
    rw [List.length_eq_zero_iff, List.filter_eq_nil_iff]
    intro i hi
    have := (List.mem_filter.1 hi).2
    simpa using this
  unfold pendingSequences
  simp only []
  generalize untaggedLines d = l at key ⊢
  induction l with
  | nil => rfl
  | cons s l ih =>
    rw [List.flatMap_cons, key s List.mem_cons_self, ih (fun s hs => key s (List.mem_cons_of_mem _ hs))]
    rfl

theorem pendingSequences_first (d : Doc) (n : Nat) : pendingSequences d (pendingOfDoc d) (some n) = firstLines d n := by
  rw [C41_limit, pendingSequences_self]
  rfl

theorem untaggedLines_ne (d : Doc) : ∀ s ∈ untaggedLines d, s ≠ [] := pendingOfDoc_ne_nil d

theorem firstLines_ne (d : Doc) (n : Nat) : ∀ s ∈ firstLines d n, s ≠ [] := by
  intro s hs
  unfold firstLines at hs
  split at hs
  · exact untaggedLines_ne d s hs
  · exact untaggedLines_ne d s (List.mem_of_mem_take hs)

theorem pyOr_default (a : Option Str) (c : Str) : none ≠ pyOr a (some c) := by
  unfold pyOr
  split
  · next h =>
    cases a with
    | none => cases h
    | some x => simp
  · simp

theorem processTargets_unfound (env : MatchEnv) (cfg : MatchCfg) (d : Doc) (ts us : List Target)
    (hu : ∀ t ∈ ts, matchingRanges env cfg (seqsText (matchSeqEnv env) d (firstLines d cfg.lookahead)) t = .ok [] ∧
      matchingRanges env cfg (seqsText (matchSeqEnv env) d (untaggedLines d)) t = .ok []) :
    processTargets env cfg (pendingOfDoc d) ⟨d, pendingOfDoc d, none, us⟩ ts = .ok ⟨d, pendingOfDoc d, none, us ++ ts⟩ := by
  induction ts generalizing us with
  | nil => rw [List.append_nil]; rfl
  | cons t ts ih =>
    obtain ⟨h1, h2⟩ := hu t List.mem_cons_self
    rw [processTargets.eq_2]
    have : processTarget env cfg (pendingOfDoc d) ⟨d, pendingOfDoc d, none, us⟩ t = .ok ⟨d, pendingOfDoc d, none, us ++ [t]⟩ := by
      unfold processTarget
      simp only []
      rw [pendingSequences_first, h1]
      simp only []
      rw [if_neg (pyOr_default _ _), pendingSequences_self, h2]
    rw [this]
    simp only []
    rw [ih _ (fun t ht => hu t (List.mem_cons_of_mem _ ht)), List.append_assoc]
    rfl

/-- A value which occurs literally is labelled where it occurs, if nothing is found for the target annotations
before it (such as if it is the first one): in the lines with untagged tokens, up to the lookahead or, if nothing
is found there, anywhere. -/
theorem C126_first (env : MatchEnv) (cfg : MatchCfg) (he : ExactEnv env cfg) (hm : cfg.mainTags = true)
    (before after : List Target) (t : Target) (v : Str) (d d' : Doc)
    (hnd : d.nonSpaceTokens.Nodup) (hp : ∀ i, ProperTag (d.getTag i))
    (hn : ∀ t' ∈ before ++ t :: after, t'.name ≠ [] ∧ tagValue (some t'.name) = some t'.name)
    (hu : ∀ t' ∈ before, matchingRanges env cfg (seqsText (matchSeqEnv env) d (firstLines d cfg.lookahead)) t' = .ok [] ∧
      matchingRanges env cfg (seqsText (matchSeqEnv env) d (untaggedLines d)) t' = .ok [])
    (h : simpleAnnotate env cfg (before ++ t :: after) d = .ok d') :
    (OccursFor env cfg t v (seqsText (matchSeqEnv env) d (firstLines d cfg.lookahead)) →
      LabelledAt env d d' (firstLines d cfg.lookahead) (normaliseStr env.lower v) t.name) ∧
    (matchingRanges env cfg (seqsText (matchSeqEnv env) d (firstLines d cfg.lookahead)) t = .ok [] →
      OccursFor env cfg t v (seqsText (matchSeqEnv env) d (untaggedLines d)) →
      LabelledAt env d d' (untaggedLines d) (normaliseStr env.lower v) t.name) := by
  have hst := processTargets_unfound env cfg d before [] hu
  have main := C126_in_turn env cfg he hm before after t v d d' hnd hp hn h _ hst
  simp only [] at main
  rw [pendingSequences_first, pendingSequences_self] at main
  constructor
  · intro ho
    exact main _ (.inl rfl) (firstLines_ne d _) ho
  · intro h0 ho
    exact main _ (.inr ⟨h0, pyOr_default _ _, rfl⟩) (untaggedLines_ne d) ho

/-! ### The tools -/

theorem before_proper (cfg : AnnotateCfg) {dc : DocCfg} {root : Elem} {d0 : Doc} (hl : loadDoc dc root = .ok d0)
    (hp : ∀ j, ProperTag (d0.getPreservedTag j)) : ∀ j, ProperTag ((beforeAnnotator cfg d0).getTag j) := by
  intro j s hs
  by_cases hj : j ∈ d0.allTokens
  · have hbt := before_tags cfg d0 j hj (loaded_no_tag hl j hj)
    obtain ⟨_, hk, hnk, _⟩ := Props.C14_before_annotation cfg d0 j hj
    have hor : d0.getTagOrPreserved j = d0.getPreservedTag j := by
      unfold Doc.getTagOrPreserved; rw [loaded_no_tag hl j hj]; rfl
    have hs' : (beforeAnnotator cfg d0).getTagOrPreserved j = some s := by
      unfold Doc.getTagOrPreserved pyOr
      split
      · exact hs
      · rcases hbt with h | h
        · rw [h] at hs; cases hs
        · rw [← h]; exact hs
    by_cases hkeep : keepMain cfg (stripTagPrefix (d0.getTagOrPreserved j))
    · rw [hk hkeep, hor] at hs'
      have := hp j s hs'
      rw [hs]
      rw [hs'] at this
      exact this
    · rw [hnk hkeep] at hs'
      cases hs'
  · have : (beforeAnnotator cfg d0).getTag j = none :=
      before_outside _ (fun j hj m => loaded_outside hl j hj m) j hj _
    rw [this] at hs
    cases hs

/-- What the simple matcher does to the label of a target annotation is left by the tools: something which holds
after the matcher, and depends on which tokens have the label only, holds for the document which is written. -/
theorem run_keeps_label (env : ToolEnv) (a : ToolArgs) (t : Tool) (d d' : Doc) (ht : labelsByMatching a t)
    (name : Str) (hxn : name ≠ [])
    (hrep : (∃ p q r, t = .fulltext p q r) → name ≠ c!"note_other" ∧ name ≠ c!"note[@type=\"other\"]")
    (h1 : annotateAll (t.annotators env a) d = .ok d') (P : Doc → Prop)
    (hsimple : ∀ (us ps ex : Bool) (z : Doc), simpleAnnotate env.simple (simpleCfg a us ps ex) a.targets d = .ok z → P z)
    (hkeep' : ∀ z z', P z → (∀ i, HasValue name i z → HasValue name i z') → P z') : P d' := by
  have hkeep : ∀ z : Doc, P z → (∀ i, HasValue name i z → HasValue name i d') → P d' := fun z => hkeep' z d'
  have hone : ∀ (g : Doc → Except Err Doc) (x y : Doc) rest, annotateAll (g :: rest) x = .ok y →
      ∃ z, g x = .ok z ∧ annotateAll rest z = .ok y := by
    intro g x y rest h
    unfold annotateAll at h
    split at h
    · cases h
    · next z hz => exact ⟨z, hz, h⟩
  have hdef : ∀ s, a.hasXml = true ∧ a.simpleMatcher = true ∧ a.useLineNumbers = false →
      annotateAll (defaultAnnotators env a s) d = .ok d' → P d' := by
    intro s ⟨e1, e2, e3⟩ h
    unfold defaultAnnotators at h
    rw [e1, e2, e3] at h
    simp only [Bool.false_eq_true, if_false, if_true, List.nil_append] at h
    obtain ⟨z, hz, h⟩ := hone _ _ _ _ h
    obtain rfl := Except.ok.inj h
    exact hsimple _ _ _ _ hz
  have hrm : ∀ (b : Bool) (y z : Doc) rest, annotateAll (removeUntaggedIf b ++ rest) y = .ok z →
      ∃ w, annotateAll rest w = .ok z ∧ ∀ i, HasValue name i y → HasValue name i w := by
    intro b y z rest h
    unfold removeUntaggedIf at h
    split at h
    · obtain ⟨w, hw, h⟩ := hone _ _ _ _ h
      obtain rfl := Except.ok.inj hw
      exact ⟨_, h, fun i hi => hi⟩
    · exact ⟨y, h, fun i hi => hi⟩
  cases t with
  | header => exact hdef _ ht h1
  | referenceSegmenter => exact hdef _ ht h1
  | segmentation c np => exact ht.elim
  | fulltext p q r =>
    obtain ⟨n1, n2⟩ := hrep ⟨p, q, r, rfl⟩
    have hg : fulltextReplaced.get? name = none := by
      cases h : fulltextReplaced.get? name with
      | none => rfl
      | some w =>
        have := mem_of_get? h
        simp only [fulltextReplaced, List.mem_cons, Prod.mk.injEq, List.not_mem_nil, or_false] at this
        rcases this with h | h
        · exact absurd h.1 n1
        · exact absurd h.1 n2
    obtain ⟨z1, hz1, h⟩ := hone _ _ _ _ h1
    obtain ⟨z2, hz2, h⟩ := hone _ _ _ _ h
    obtain ⟨z3, hz3, h⟩ := hone _ _ _ _ h
    obtain rfl := Except.ok.inj hz2
    obtain rfl := Except.ok.inj hz3
    refine hkeep z1 (hsimple _ _ _ _ hz1) (fun i hi => ?_)
    have k3 := hasValue_mergeGroup hxn fulltextGroup (hasValue_replaceTags hxn _ hg hi)
    generalize mergeGroupTags fulltextGroup none (replaceTags fulltextReplaced z1) = z3 at h k3
    cases q <;> cases r
    · obtain rfl := Except.ok.inj h; exact k3
    · obtain rfl := Except.ok.inj h; exact hasValue_expandFollowing hxn _ k3
    · obtain rfl := Except.ok.inj h; exact hasValue_expandPrevious hxn _ k3
    · obtain rfl := Except.ok.inj h; exact hasValue_expandFollowing hxn _ (hasValue_expandPrevious hxn _ k3)
  | figure s =>
    cases ht
    obtain ⟨z, hz, h⟩ := hone _ _ _ _ h1
    obtain rfl := Except.ok.inj h
    exact hsimple _ _ _ _ hz
  | table s =>
    cases ht
    obtain ⟨z, hz, h⟩ := hone _ _ _ _ h1
    obtain rfl := Except.ok.inj h
    exact hsimple _ _ _ _ hz
  | reference s p r =>
    cases ht
    obtain ⟨z, hz, h⟩ := hone _ _ _ _ h1
    obtain ⟨w, hw, h⟩ := hone _ _ _ _ h
    refine hkeep z (hsimple _ _ _ _ hz) (fun i hi => ?_)
    rw [← List.append_nil (removeUntaggedIf r)] at h
    obtain ⟨w', h, hw'⟩ := hrm r w d' [] h
    obtain rfl := Except.ok.inj h
    refine hw' i ?_
    unfold HasValue
    rw [(subOnly_referenceAnnotate _ _ _ _ hw).getTag]
    exact hi
  | affiliation s r =>
    cases ht
    obtain ⟨z, hz, h⟩ := hone _ _ _ _ h1
    refine hkeep z (hsimple _ _ _ _ hz) (fun i hi => ?_)
    obtain ⟨w', h, hw'⟩ := hrm r z d' _ h
    obtain ⟨w2, hw2, h⟩ := hone _ _ _ _ h
    obtain rfl := Except.ok.inj h
    obtain rfl := Except.ok.inj hw2
    unfold HasValue
    rw [(subOnly_mergeGroupTags _ _).getTag]
    exact hw' i hi

theorem run_literal_label (env : ToolEnv) (a : ToolArgs) (t : Tool) (d d' : Doc)
    (he : ExactEnv env.simple (simpleCfg a false false true)) (ht : labelsByMatching a t)
    (x : Target) (after : List Target) (v : Str) (hx : a.targets = x :: after)
    (hn : ∀ y ∈ a.targets, y.name ≠ [] ∧ tagValue (some y.name) = some y.name)
    (hrep : (∃ p q r, t = .fulltext p q r) → x.name ≠ c!"note_other" ∧ x.name ≠ c!"note[@type=\"other\"]")
    (hprop : ∀ j, ProperTag (d.getTag j)) (hnd : d.nonSpaceTokens.Nodup)
    (h1 : annotateAll (t.annotators env a) d = .ok d')
    (ho : OccursFor env.simple (simpleCfg a false false true) x v (seqsText (matchSeqEnv env.simple) d (firstLines d a.lookahead))) :
    LabelledAt env.simple d d' (firstLines d a.lookahead) (normaliseStr env.simple.lower v) x.name := by
  have hxn := hn x (by rw [hx]; exact List.mem_cons_self)
  refine run_keeps_label env a t d d' ht x.name hxn.1 hrep h1
    (fun z => LabelledAt env.simple d z (firstLines d a.lookahead) (normaliseStr env.simple.lower v) x.name) ?_ ?_
  · intro us ps ex z hz
    rw [hx] at hz
    exact (C126_first env.simple (simpleCfg a us ps ex) ⟨he.good, he.lsm, he.diff, he.rnd, he.re, he.thresholdPos, he.thresholdLe⟩
      rfl [] after x v d z hnd hprop (fun y hy => hn y (by rw [hx]; exact hy)) (fun y hy => by cases hy) hz).1 ho
  · rintro z z' ⟨ranges, r, b1, b2, b3, b4, b5⟩ hz
    refine ⟨ranges, r, b1, b2, b3, b4, ?_⟩
    intro y hy hov
    have := b5 y hy hov
    rw [← stripTagPrefix_eq_tagValue] at this ⊢
    exact hz y.1 this

/-- **C126.** The tools label the value of the first target annotation where it occurs literally in the file (in the
lines up to the lookahead, and their tokens without label): each token of an occurrence has its label in the
document which is written. -/
theorem C126_tool (env : ToolEnv) (a : ToolArgs) (t : Tool) (cfg : DocCfg) (passes : Doc → Except Err Bool)
    (root root' : Elem) (target path : Str) (failed : Option Str)
    (he : ExactEnv env.simple (simpleCfg a false false true)) (ht : labelsByMatching a t)
    (x : Target) (after : List Target) (v : Str) (hx : a.targets = x :: after)
    (hn : ∀ y ∈ a.targets, y.name ≠ [] ∧ tagValue (some y.name) = some y.name)
    (hrep : (∃ p q r, t = .fulltext p q r) → x.name ≠ c!"note_other" ∧ x.name ≠ c!"note[@type=\"other\"]")
    (h : t.run env a cfg passes root target failed = .ok (some (path, root'))) :
    ∃ d0 d', loadDoc { cfg with preserveTags := true } root = .ok d0 ∧ docRoot cfg root d' = .ok root' ∧
      let d := beforeAnnotator (t.annotateCfg a) d0
      ((∀ j, ProperTag (d0.getPreservedTag j)) →
        OccursFor env.simple (simpleCfg a false false true) x v (seqsText (matchSeqEnv env.simple) d (firstLines d a.lookahead)) →
        LabelledAt env.simple d d' (firstLines d a.lookahead) (normaliseStr env.simple.lower v) x.name) := by
  obtain ⟨d0, d', h0, h1, h2, _⟩ := run_steps h
  refine ⟨d0, d', h0, h2, ?_⟩
  intro d hp ho
  exact run_literal_label env a t d d' he ht x after v hx hn hrep (before_proper _ h0 hp)
    (nodup_loadDoc h0 (Props.C14_aux_sameBut _ _)).2 h1 ho

/-! ### Examples -/

/-- The matcher of the examples meets the assumptions. -/
theorem exMatch_exact (a : ToolArgs) (h0 : 0 < a.threshold) (h1 : a.threshold ≤ 1) :
    ExactEnv exMatchEnv (simpleCfg a false false true) :=
  ⟨⟨exFind_good, exFind_good⟩, exFind_finds, exFind_finds, fun _ _ => (by simp [exMatchEnv]), fun _ _ _ h => (by simp [exMatchEnv] at h), h0, h1⟩

/-- The text of the lines of the example file, in which the title occurs. -/
example : (∃ d0, loadDoc { exToolCfg with preserveTags := true } exToolRoot = .ok d0 ∧
      let d := beforeAnnotator (Tool.header.annotateCfg { targets := exTargets }) d0
      seqsText (matchSeqEnv exMatchEnv) d (firstLines d 200) = c!"on some title\nby author abc") ∧
    OccursFor exMatchEnv (simpleCfg { targets := exTargets } false false true) ⟨c!"title", .one c!"some title", []⟩
      c!"some title" c!"on some title\nby author abc" ∧
    labelsByMatching { targets := exTargets } .header := by
  refine ⟨exists_of_okAnd (by decide +kernel), ⟨rfl, by decide, .inl (by decide), .inr ⟨by decide +kernel, by decide +kernel, by decide +kernel, by decide +kernel⟩, ?_⟩, rfl, rfl, rfl⟩
  intro _
  exact onlyLiteral_short _ _ _ (by decide +kernel) (by decide +kernel)

/-- The title and what completes its line are labelled. -/
example : ∃ d', loadAndAnnotate exToolEnv { targets := exTargets } .header exToolCfg exToolRoot = .ok d' ∧
    d'.nonSpaceTokens.map (fun i => d'.getTag i) =
      [some c!"b-title", some c!"i-title", some c!"i-title", none, none, some c!"b-name"] :=
  exists_of_okAnd (by decide +kernel)

/-- The abstract of the example configuration may be found in two parts. -/
example : let cfg : MatchCfg := { tagConfigMap := [(c!"abstract", { maxChunks := 2 })] }
    (cfg.tagConfig c!"abstract").maxChunks = 2 ∧
    OccursFor exMatchEnv cfg ⟨c!"abstract", .one c!"some long abstract", []⟩ c!"some long abstract"
      c!"on some long abstract\nby author abc" ∧
    matchingRanges exMatchEnv cfg c!"on some long abstract\nby author abc" ⟨c!"abstract", .one c!"some long abstract", []⟩ =
      .ok [(3, 21)] := by
  intro cfg
  refine ⟨rfl, ⟨rfl, by decide, C126_one_chunk _ _ ?_ _ _ _ (by decide +kernel) (by decide +kernel) (.inl (by decide +kernel)),
    .inr ⟨by decide +kernel, by decide +kernel, by decide +kernel, by decide +kernel⟩, ?_⟩, by decide +kernel⟩
  · exact ⟨⟨exFind_good, exFind_good⟩, exFind_finds, exFind_finds, fun _ _ => (by simp [exMatchEnv]),
      fun _ _ _ h => (by simp [exMatchEnv] at h), (by decide +kernel), (by decide +kernel)⟩
  · intro _
    exact onlyLiteral_short _ _ _ (by decide +kernel) (by decide +kernel)

/-- A short value: the word is found across the end of a line. -/
example : OccursFor exMatchEnv {} ⟨c!"name", .one c!"a b", []⟩ c!"a b" c!"x a\nb" ∧
    matchingRanges exMatchEnv {} c!"x a\nb" ⟨c!"name", .one c!"a b", []⟩ = .ok [(2, 5)] := by
  refine ⟨⟨rfl, by decide +kernel, .inl (by decide), .inl ⟨by decide +kernel, by decide +kernel, ⟨c!"x ", [], by decide +kernel, .inr ⟨c!"x", ' ', rfl, by decide +kernel⟩, .inl rfl⟩⟩, ?_⟩,
    by decide +kernel⟩
  intro h
  exact absurd h (by decide +kernel)

end Verif
