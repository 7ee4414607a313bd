/-
Lemmas about target annotations after others, in the annotator comparing values with lines.
-/
import Verif.Lemmas.CoreFind

namespace Verif

open Spec (newTag spans tokensIn matchTokens NoPartOn blocksOf untaggedLines compared untaggedRuns)

theorem annotateTargets_append (env : CoreEnv) (cfg : CoreCfg) (fuel : Nat) (pending : List CoreSeq) (a b : List CoreTarget) :
    ∀ st, annotateTargets env cfg fuel pending st (a ++ b) =
      match annotateTargets env cfg fuel pending st a with
      | .error e => .error e
      | .ok none => .ok none
      | .ok (some st') => annotateTargets env cfg fuel pending st' b := by
  induction a with
  | nil => intro st; rfl
  | cons t a ih =>
    intro st
    rw [List.cons_append, annotateTargets.eq_2, annotateTargets.eq_2]
    cases annotateItems env cfg t fuel st.doc st.cond (if t.bonding then st.matchedMap.getD t.name [] else []) ⟨[], pending, 0, 1⟩ with
    | error e => rfl
    | ok r =>
      cases r with
      | none => rfl
      | some r => exact ih _

theorem annotateItems_quiet {env : CoreEnv} {cfg : CoreCfg} {t : CoreTarget} (hr : t.requireNext = false) (n : Nat) :
    ∀ {d : Doc} {matched : List Nat} {c : Choices} {r},
    annotateItems env cfg t n d none matched c = .ok (some r) → r.2.1 = none := by
  induction n with
  | zero => intro d matched c r h; simp [annotateItems] at h
  | succ n ih =>
    intro d matched c r h
    unfold annotateItems at h
    split at h
    · cases h
    · simp only [hr] at h
      split at h
      · cases h; rfl
      · split at h
        · cases h
        · split at h
          · cases h
          · split at h
            · exact ih h
            · cases h; rfl

theorem annotateTargets_quiet {env : CoreEnv} {cfg : CoreCfg} {fuel : Nat} {pending : List CoreSeq} (name : Str) (ts : List CoreTarget) :
    (∀ t ∈ ts, t.requireNext = false) → ∀ {st st' : CoreState}, st.cond = none →
    annotateTargets env cfg fuel pending st ts = .ok (some st') →
    st'.cond = none ∧ ((∀ t ∈ ts, t.bonding = true → t.name ≠ name) → st'.matchedMap.get? name = st.matchedMap.get? name) := by
  induction ts with
  | nil =>
    intro _ st st' hc h
    simp only [annotateTargets, Except.ok.injEq, Option.some.injEq] at h
    subst h
    exact ⟨hc, fun _ => rfl⟩
  | cons t ts ih =>
    intro hr st st' hc h
    unfold annotateTargets at h
    simp only at h
    split at h
    · cases h
    · simp at h
    · next d cond matched' ha =>
      rw [hc] at ha
      have hq := annotateItems_quiet (hr t List.mem_cons_self) fuel ha
      obtain ⟨h1, h2⟩ := ih (fun t ht => hr t (List.mem_cons_of_mem _ ht)) (st := ⟨d, cond, _⟩) hq h
      refine ⟨h1, fun hb => ?_⟩
      rw [h2 (fun t ht => hb t (List.mem_cons_of_mem _ ht))]
      simp only
      split
      · next hbt => exact Dict.get?_set_ne _ _ (fun e => hb t List.mem_cons_self hbt e.symm)
      · rfl

/-- What is found for the first line with something of the value is among the matches. -/
theorem findLoop_first {env : CoreEnv} {cfg : CoreCfg} {text : CoreSeq → Str} {s1 : Str} {c : CoreSeq} {post : List CoreSeq}
    (hc : text c ≠ []) {cr : ChoiceResult}
    (hstep : choiceStep env cfg false s1 ⟨0, false, []⟩ c (text c) (post.head?.map (fun n => (n, text n))) = .ok cr) (pre : List CoreSeq)
    (hpre : ∀ a l l' b, pre ++ [c] = a ++ l :: l' :: b → text l ≠ [] ∧ NoPartOn env s1 (text l) (text l')) :
    ∀ {r}, findLoop env cfg false text s1 ⟨0, false, []⟩ (pairUp (pre ++ c :: post) (pre ++ c :: post).tail) = .ok r →
      ∀ m ∈ cr.found, m ∈ r.found := by
  have hclose : ∀ s, isCloseToAny [] cfg.maxGap s = true := by
    intro s
    simp [isCloseToAny]
  induction pre with
  | nil =>
    intro r h m hm
    simp only [List.nil_append, pairUp, List.tail_cons, findLoop, hclose, Bool.not_true, Bool.false_eq_true, if_false] at h
    rw [if_neg (by simpa using hc), hstep] at h
    simp only at h
    split at h
    · cases h; exact hm
    · split at h
      · cases h
      · cases h; exact List.mem_append_left _ hm
  | cons p pre ih =>
    intro r h m hm
    have hnext : ∃ n rest, pre ++ c :: post = n :: rest ∧ ∃ b, (p :: pre) ++ [c] = [] ++ p :: n :: b := by
      cases pre with
      | nil => exact ⟨c, post, rfl, [], rfl⟩
      | cons q pre => exact ⟨q, pre ++ c :: post, rfl, pre ++ [c], rfl⟩
    obtain ⟨n, rest, hn, b, hb'⟩ := hnext
    have hp := hpre [] p n b hb'
    rw [List.cons_append, List.tail_cons] at h
    unfold pairUp at h
    unfold findLoop at h
    simp only [hclose, Bool.not_true, Bool.false_eq_true, if_false] at h
    rw [if_neg (by simpa using hp.1)] at h
    have hhead : (pre ++ c :: post).head? = some n := by rw [hn]; rfl
    rw [hhead, Option.map_some, choiceStep_none rfl hp.2] at h
    simp only [Bool.false_eq_true, if_false] at h
    split at h
    · cases h
    · next r' hr' =>
      cases h
      exact List.mem_append_right _ (ih (fun a l l' b h => hpre (p :: a) l l' b (by rw [List.cons_append, h]; rfl)) hr' m hm)

theorem matchCount_nonEmpty (r : FuzzyResult) : r.matchCount = (r.nonEmpty.map Block.size).sum := by
  unfold FuzzyResult.matchCount FuzzyResult.nonEmpty
  induction r.blocks with
  | nil => rfl
  | cons x bs ih =>
    rw [List.map_cons, List.sum_cons, ih, List.filter_cons]
    split
    · simp
    · next h =>
      have : x.size = 0 := by simpa using h
      omega

theorem ratios_congr {r r' : FuzzyResult} (ha : r.a = r'.a) (hb : r.b = r'.b) (hj : r.isJunk = r'.isJunk) (hn : r.nonEmpty = r'.nonEmpty) :
    r.bGapRatio = r'.bGapRatio ∧ r.aRatio = r'.aRatio := by
  unfold FuzzyResult.bGapRatio FuzzyResult.rangeLen FuzzyResult.aRatio FuzzyResult.ratioTo FuzzyResult.aNonMatchingJunk FuzzyResult.bNonMatchingJunk
    FuzzyResult.countNonMatchingJunk FuzzyResult.aBlocks FuzzyResult.bBlocks FuzzyResult.aRange
  simp only [matchCount_nonEmpty, ha, hb, hj, hn, and_self]

/-- A value on two lines. -/
theorem regularStep_two {env : CoreEnv} {cfg : CoreCfg} {cur nxt : Str} (hne : cur ≠ []) {st : FindState}
    {choice n : CoreSeq}
    (hb : (blocksOf env (cur ++ [' '] ++ nxt) (cur ++ [' '] ++ nxt)).filter (fun x => x.size ≠ 0) =
      [⟨0, 0, (cur ++ [' '] ++ nxt).length⟩])
    (h1 : cfg.seqFilter.bScore ≤ 1) (h2 : cfg.seqFilter.totalThreshold ≤ 1) :
    ∃ st' last, regularStep env cfg (cur ++ [' '] ++ nxt) st choice cur (some (n, nxt)) =
      .ok ⟨[⟨choice, (0, cur.length), (0, cur.length)⟩, ⟨n, (0, 1 + nxt.length), (0, 1 + nxt.length)⟩], st', last⟩ := by
  have hlen : cur.length ≠ 0 := by simpa using hne
  generalize hs : cur ++ [' '] ++ nxt = s1 at *
  have hsl : s1.length = cur.length + (1 + nxt.length) := by rw [← hs]; simp; omega
  have hcs : choiceStr cur (some (n, nxt)) = s1 := hs
  have hne1 : s1 ≠ [] := by intro h; rw [h] at hsl; simp at hsl; omega
  have hnon : (coreFuzzyMatch env s1 s1).nonEmpty = [⟨0, 0, s1.length⟩] := hb
  have hr : (coreFuzzyMatch env s1 s1).bRange = (0, s1.length) := by
    unfold FuzzyResult.bRange
    rw [hnon]
    simp
  have htake : s1.take cur.length = cur := by rw [← hs, List.append_assoc, List.take_left']; rfl
  have hsplit : (coreFuzzyMatch env s1 s1).bSplitAt env.cc cur.length =
      (⟨s1, cur, [⟨0, 0, cur.length⟩], coreIsJunk env.cc⟩,
       ⟨s1, s1.drop cur.length, [⟨0, 0, 1 + nxt.length⟩], coreIsJunk env.cc⟩) := by
    unfold FuzzyResult.bSplitAt
    simp only
    rw [if_neg (by rw [hr, hnon]; simp; omega), hnon]
    simp only [List.filter_cons, List.filter_nil]
    rw [if_pos (by simp; omega), if_pos (by simp; omega)]
    simp only [List.map_cons, List.map_nil]
    rw [if_neg (by omega)]
    show ((⟨s1, s1.take cur.length, _, _⟩ : FuzzyResult), (⟨s1, s1.drop cur.length, _, _⟩ : FuzzyResult)) = _
    rw [htake]
    have e1 : min s1.length (cur.length - 0) = cur.length := by omega
    have e2 : s1.length + 0 - cur.length = 1 + nxt.length := by omega
    rw [e1, e2, Nat.zero_sub]
  have hid := Props.C37_identical s1 hne1 (coreIsJunk env.cc)
  simp only at hid
  have hfm : (⟨s1, cur, [⟨0, 0, cur.length⟩], coreIsJunk env.cc⟩ : FuzzyResult).nonEmpty = [⟨0, 0, cur.length⟩] := by
    simp [FuzzyResult.nonEmpty, hne]
  have hfn : (⟨s1, s1.drop cur.length, [⟨0, 0, 1 + nxt.length⟩], coreIsJunk env.cc⟩ : FuzzyResult).nonEmpty = [⟨0, 0, 1 + nxt.length⟩] := by
    simp [FuzzyResult.nonEmpty]
  have hhas : (⟨s1, cur, [⟨0, 0, cur.length⟩], coreIsJunk env.cc⟩ : FuzzyResult).hasMatch = true := by
    simp [FuzzyResult.hasMatch, hfm]
  have hhasn : (⟨s1, s1.drop cur.length, [⟨0, 0, 1 + nxt.length⟩], coreIsJunk env.cc⟩ : FuzzyResult).hasMatch = true := by
    simp [FuzzyResult.hasMatch, hfn]
  have hcheck : cfg.seqFilter.check (coreFuzzyMatch env s1 s1) none false = true := by
    have ha : (coreFuzzyMatch env s1 s1).bGapRatio = (⟨s1, s1, [⟨0, 0, s1.length⟩], coreIsJunk env.cc⟩ : FuzzyResult).bGapRatio ∧
        (coreFuzzyMatch env s1 s1).aRatio = (⟨s1, s1, [⟨0, 0, s1.length⟩], coreIsJunk env.cc⟩ : FuzzyResult).aRatio := by
      have hn2 : (⟨s1, s1, [⟨0, 0, s1.length⟩], coreIsJunk env.cc⟩ : FuzzyResult).nonEmpty = [⟨0, 0, s1.length⟩] := by
        simp [FuzzyResult.nonEmpty, hne1]
      exact ratios_congr rfl rfl rfl (hnon.trans hn2.symm)
    unfold CoreFilter.check
    rw [ha.1, ha.2, hid.2.2.2, hid.2.1]
    simp [h1, h2]
  have hr1 : (⟨s1, cur, [⟨0, 0, cur.length⟩], coreIsJunk env.cc⟩ : FuzzyResult).aRange = (0, cur.length) ∧
      (⟨s1, cur, [⟨0, 0, cur.length⟩], coreIsJunk env.cc⟩ : FuzzyResult).bRange = (0, cur.length) := by
    unfold FuzzyResult.aRange FuzzyResult.bRange
    rw [hfm]
    simp
  have hr2 : (⟨s1, s1.drop cur.length, [⟨0, 0, 1 + nxt.length⟩], coreIsJunk env.cc⟩ : FuzzyResult).aRange = (0, 1 + nxt.length) ∧
      (⟨s1, s1.drop cur.length, [⟨0, 0, 1 + nxt.length⟩], coreIsJunk env.cc⟩ : FuzzyResult).bRange = (0, 1 + nxt.length) := by
    unfold FuzzyResult.aRange FuzzyResult.bRange
    rw [hfn]
    simp
  unfold regularStep
  simp only [hcs, hsplit, hhas, hhasn, hcheck, hr1.1, hr1.2, hr2.1, hr2.2]
  rw [if_pos (by simp; right; omega)]
  exact ⟨_, _, rfl⟩

theorem mem_tokensIn_from {text : Nat → Str} {tokens : List Nat} {j : Nat} (hj : j ∈ tokens) (hne : text j ≠ []) {e : Nat}
    (he : (joinStr [' '] (tokens.map text)).length ≤ e) : j ∈ tokensIn text tokens (0, e) := by
  have h := mem_tokensIn_all hj hne
  unfold tokensIn at h ⊢
  obtain ⟨x, hx, rfl⟩ := List.mem_map.1 h
  obtain ⟨hx1, hx2⟩ := List.mem_filter.1 hx
  refine List.mem_map.2 ⟨x, List.mem_filter.2 ⟨hx1, ?_⟩, rfl⟩
  simp only [Spec.overlaps, Bool.and_eq_true, decide_eq_true_eq] at hx2 ⊢
  omega

/-- The lines as far as they are not tagged in `d0`, in the order in which they are compared. -/
theorem pairs_of_lines (d d0 : Doc) : ∃ L : List CoreSeq, (⟨[], corePending d, 0, 1⟩ : Choices).pairs d0 = pairUp L L.tail ∧
    L.map CoreSeq.tokens = (untaggedLines d).flatMap (untaggedRuns d0) ∧ ∀ s ∈ L, ∀ i ∈ s.tokens, truthy (d0.getTag i) = false := by
  refine ⟨(corePending d).flatMap (coreSubSeqs d0), ?_, ?_, ?_⟩
  · unfold Choices.pairs Choices.all
    simp only [List.nil_append, List.drop_zero, List.drop_one]
  · have hp : untaggedLines d = (corePending d).map CoreSeq.tokens := by
      unfold corePending
      rw [List.map_map]
      have : (CoreSeq.tokens ∘ fun x : List Nat × Nat => (⟨x.1, x.2⟩ : CoreSeq)) = Prod.fst := rfl
      rw [this]
      simp
      rfl
    rw [hp, List.map_flatMap, List.flatMap_map]
    rw [List.flatMap, List.flatMap]
    refine congrArg List.flatten (List.map_congr_left fun s hs => ?_)
    unfold coreSubSeqs
    rw [List.map_map]
    have : (CoreSeq.tokens ∘ fun ts => (⟨ts, s.position⟩ : CoreSeq)) = id := rfl
    rw [this, List.map_id]
    exact untaggedSub_eq d0 s.tokens (pendingOfDoc_ne_nil d _ (mem_corePending hs))
  · intro s hs i hi
    obtain ⟨p, _, hp⟩ := List.mem_flatMap.1 hs
    unfold coreSubSeqs at hp
    obtain ⟨ts, hts, rfl⟩ := List.mem_map.1 hp
    have hm : i ∈ (untaggedSubSequences d0 p.tokens).flatten := List.mem_flatten.2 ⟨ts, hts, hi⟩
    rw [untaggedSub_flatten] at hm
    simpa using (List.mem_filter.1 hm).2

end Verif
