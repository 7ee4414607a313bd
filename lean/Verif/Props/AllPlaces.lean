/-
C141: all values which occur at places of their own are labelled there.
-/
import Verif.Props.ReadBack
import Verif.Spec.AllPlaces

namespace Verif
open Spec

theorem groupBy_congr_mem {α κ : Type} [DecidableEq κ] (f g : α → κ) (l : List α) (h : ∀ x ∈ l, f x = g x) : groupBy f l = groupBy g l := by
  induction l with
  | nil => rfl
  | cons a l ih =>
    rw [groupBy, groupBy, ih (fun x hx => h x (List.mem_cons_of_mem _ hx)), h a List.mem_cons_self]

/-- The state after the values at these places have been labelled. -/
structure Placed (cfg : MatchCfg) (d : Doc) (done : List (Target × List Nat)) (st : MatchState) : Prop where
  current : st.current = pendingOfDoc d
  none_left : st.untagged = []
  same : SameBut d st.doc
  taken : ∀ i ∈ done.flatMap Prod.snd, truthy (d.getTag i) = false
  other : ∀ i, i ∉ done.flatMap Prod.snd → st.doc.getTag i = d.getTag i
  tags : ∀ p ∈ done, ∀ k j, p.2[k]? = some j → st.doc.getTag j = indexTag cfg p.1.name k

theorem indexTag_truthy (cfg : MatchCfg) {name : Str} (k : Nat) (hn : name ≠ []) : truthy (indexTag cfg name k) = true := by
  unfold indexTag indexPrefix
  split
  · split <;> rw [addTagPrefix_of_truthy hn (by decide)] <;> rfl
  · simpa [addTagPrefix, truthy_some] using hn

theorem Placed.truthy {cfg : MatchCfg} {d : Doc} {done : List (Target × List Nat)} {st : MatchState} (h : Placed cfg d done st)
    (hn : ∀ p ∈ done, p.1.name ≠ []) (i : Nat) (hi : Verif.truthy (d.getTag i) = false) :
    Verif.truthy (st.doc.getTag i) = decide (i ∈ done.flatMap Prod.snd) := by
  by_cases hm : i ∈ done.flatMap Prod.snd
  · obtain ⟨p, hp, hip⟩ := List.mem_flatMap.1 hm
    obtain ⟨k, hk⟩ := List.mem_iff_getElem?.1 hip
    rw [h.tags p hp k i hk, indexTag_truthy cfg k (hn p hp)]
    exact (decide_eq_true hm).symm
  · rw [h.other i hm, hi]
    exact (decide_eq_false hm).symm

theorem Placed.free {cfg : MatchCfg} {d : Doc} {done : List (Target × List Nat)} {st : MatchState} (h : Placed cfg d done st)
    (hn : ∀ p ∈ done, p.1.name ≠ []) (n : Nat) :
    pendingSequences st.doc st.current (some n) = freeRuns d (done.flatMap Prod.snd) n := by
  rw [h.current, C41_limit, (C41_pending d st.doc).2.2]
  unfold freeRuns
  have e : ((d.lines.map (fun l => untagged d l.nonSpace)).filter (fun s => s ≠ [])) = untaggedLines d := by
    unfold untaggedLines
    apply List.filter_congr
    intro s _
    cases s <;> simp
  rw [e]
  have e2 : (untaggedLines d).flatMap (untaggedRuns st.doc) = (untaggedLines d).flatMap (runsWithout (done.flatMap Prod.snd)) := by
    rw [List.flatMap_def, List.flatMap_def]
    congr 1
    refine List.map_congr_left (fun s hs => ?_)
    unfold untaggedRuns runsWithout
    rw [groupBy_congr_mem _ (fun i => decide (i ∈ done.flatMap Prod.snd)) s]
    intro i hi
    refine h.truthy hn i ?_
    unfold untaggedLines at hs
    obtain ⟨l, _, rfl⟩ := List.mem_map.1 (List.mem_filter.1 hs).1
    simpa using (List.mem_filter.1 hi).2
  rw [e2]

theorem freeRuns_sub (d : Doc) (taken : List Nat) (n : Nat) : (freeRuns d taken n).flatten.Sublist (untaggedLines d).flatten := by
  have h : ((untaggedLines d).flatMap (runsWithout taken)).flatten.Sublist (untaggedLines d).flatten := by
    generalize untaggedLines d = ls
    induction ls with
    | nil => exact .slnil
    | cons s ls ih =>
      rw [List.flatMap_cons, List.flatten_append, List.flatten_cons]
      refine List.Sublist.append ?_ ih
      unfold runsWithout
      have hg : ((groupBy (fun i => decide (i ∈ taken)) s).map Prod.snd).flatten = s := groupBy_flatten _ s
      conv => rhs; rw [← hg]
      exact sublist_flatten (List.filter_sublist.map _)
  unfold freeRuns
  simp only []
  split
  · exact h
  · exact (sublist_flatten (List.take_sublist _ _)).trans h

/-- One value at its place. -/
theorem Placed.step {env : MatchEnv} {cfg : MatchCfg} (he : ExactEnv env cfg) (hm : cfg.mainTags = true) {d : Doc} (hnd : d.nonSpaceTokens.Nodup)
    {done : List (Target × List Nat)} {st st' : MatchState} (h : Placed cfg d done st) (hn : ∀ p ∈ done, p.1.name ≠ [])
    {t : Target} {place : List Nat} (hv : ValueAt env cfg d (done.flatMap Prod.snd) t place)
    (hp : processTarget env cfg (pendingOfDoc d) st t = .ok st') : Placed cfg d (done ++ [(t, place)]) st' := by
  obtain ⟨hre, v, ho, hplace⟩ := hv
  have hfree := h.free hn cfg.lookahead
  generalize hseqs : freeRuns d (done.flatMap Prod.snd) cfg.lookahead = seqs at ho hplace hfree
  have htext : seqsText (matchSeqEnv env) st.doc seqs = seqsText (matchSeqEnv env) d seqs := seqsText_congr _ h.same _
  obtain ⟨r, hr, hr1, hr2, hr3⟩ := C126_range env cfg he t v _ ho
  have hne : ∀ s ∈ seqs, s ≠ [] := by
    rw [← hfree, h.current, C41_limit]
    intro s hs
    refine (C41_pending d st.doc).2.1 s ?_
    split at hs
    · exact hs
    · exact List.mem_of_mem_take hs
  have hun : ∀ i ∈ seqs.flatten, Verif.truthy (st.doc.getTag i) = false := by
    rw [← hfree]
    exact pendingSequences_flatten_untagged _ _ _
  obtain ⟨ranges, hlo, hb⟩ := C40_tokens_between (matchSeqEnv env) d seqs hne
  have hbetween : seqTokensBetween (matchSeqEnv env) st.doc r.1 r.2 seqs = place := by
    rw [seqTokensBetween_congr _ h.same, hb]
    exact hplace ranges r hlo hr1 hr2 hr3
  have hsub : place.Sublist seqs.flatten := by
    rw [← hbetween]
    exact seqTokensBetween_sublist _ _ _ _ _
  have hsub2 : place.Sublist (untaggedLines d).flatten := hsub.trans (by rw [← hseqs]; exact freeRuns_sub _ _ _)
  have hund : ∀ i ∈ place, Verif.truthy (d.getTag i) = false := by
    intro i hi
    have : i ∈ (pendingOfDoc d).flatten := hsub2.subset hi
    rw [pendingOfDoc_flatten] at this
    simpa using (List.mem_filter.1 this).2
  have hplnd : place.Nodup := by
    refine List.Nodup.sublist hsub2 ?_
    show (pendingOfDoc d).flatten.Nodup
    rw [pendingOfDoc_flatten]
    exact hnd.sublist List.filter_sublist
  have hapart : ∀ i ∈ place, i ∉ done.flatMap Prod.snd := by
    intro i hi hd
    have h1 := hun i (hsub.subset hi)
    rw [h.truthy hn i (hund i hi), decide_eq_true hd] at h1
    cases h1
  -- the step
  unfold processTarget at hp
  simp only [] at hp
  rw [hfree, htext, hr] at hp
  simp only [] at hp
  split at hp
  · cases hp
  next d1 hd1 =>
  cases hp
  unfold applyRanges at hd1
  have hpre : applyPrefixRegex env cfg (seqsText (matchSeqEnv env) st.doc seqs) r t = .ok r := by
    unfold applyPrefixRegex
    simp only []
    rw [if_neg (by rw [hre]; simp)]
  rw [hpre] at hd1
  simp only [] at hd1
  split at hd1
  · cases hd1
  next d2 hd2 =>
  unfold applyRanges at hd1
  have hd1 := Except.ok.inj hd1
  subst hd1
  have hupd : updateRange (matchSeqEnv env) cfg seqs r t.name st.doc = tagTokens cfg t.name st.doc 0 place := by
    unfold updateRange
    rw [if_pos hm]
    simp only []
    rw [hbetween, List.filter_eq_self.2]
    intro i hi
    rw [hun i (hsub.subset hi)]
    rfl
  rw [hupd] at hd2
  have hg : Grows cfg seqs.flatten [] (t.subs.map Prod.fst) (tagTokens cfg t.name st.doc 0 place) d2 := by
    split at hd2
    · exact processSub_grows env _ cfg seqs r [] _ _ _ hd2
    · cases hd2; exact .refl _ _ _ _ _
  have htag : ∀ i, d2.getTag i = (tagTokens cfg t.name st.doc 0 place).getTag i := by
    intro i
    rcases hg.tag i with e | ⟨_, _, n, hn', _⟩
    · exact e
    · cases hn'
  refine ⟨h.current, h.none_left, h.same.trans ((tagTokens_sameBut _ _ _ _ _).trans hg.same), ?_, ?_, ?_⟩
  · intro i hi
    rw [List.flatMap_append, List.mem_append] at hi
    rcases hi with hi | hi
    · exact h.taken i hi
    · exact hund i (by simpa using hi)
  · intro i hi
    rw [List.flatMap_append, List.mem_append, not_or] at hi
    rw [htag, tagTokens_other _ _ _ _ _ _ (by simpa using hi.2)]
    exact h.other i hi.1
  · intro p hp k j hj
    rw [htag]
    rcases List.mem_append.1 hp with hp | hp
    · rw [tagTokens_other]
      · exact h.tags p hp k j hj
      · intro hjp
        exact hapart j hjp (List.mem_flatMap.2 ⟨p, hp, List.mem_of_getElem? hj⟩)
    · rw [List.mem_singleton.1 hp] at hj ⊢
      rw [tagTokens_get cfg t.name st.doc 0 place hplnd k j hj, Nat.zero_add]

theorem Placed.steps {env : MatchEnv} {cfg : MatchCfg} (he : ExactEnv env cfg) (hm : cfg.mainTags = true) {d : Doc} (hnd : d.nonSpaceTokens.Nodup)
    (ps : List (Target × List Nat)) : ∀ (done : List (Target × List Nat)) (st st' : MatchState), Placed cfg d done st →
      (∀ p ∈ done ++ ps, p.1.name ≠ []) → PlacedInTurn env cfg d (done.flatMap Prod.snd) ps →
      processTargets env cfg (pendingOfDoc d) st (ps.map Prod.fst) = .ok st' → Placed cfg d (done ++ ps) st' := by
  induction ps with
  | nil =>
    intro done st st' h _ _ hp
    cases hp
    rwa [List.append_nil]
  | cons p ps ih =>
    obtain ⟨t, place⟩ := p
    intro done st st' h hn hv hp
    rw [List.map_cons, processTargets.eq_2] at hp
    split at hp
    · cases hp
    next st1 h1 =>
    have := ih (done ++ [(t, place)]) st1 st' (h.step he hm hnd (fun p hp => hn p (List.mem_append_left _ hp)) hv.1 h1)
      (by rwa [List.append_assoc]) (by rw [List.flatMap_append]; simpa using hv.2) hp
    rwa [List.append_assoc] at this

/-- The document before labels are extended to lines. -/
theorem annotate_placed (env : MatchEnv) (cfg : MatchCfg) (he : ExactEnv env cfg) (hm : cfg.mainTags = true) (ps : List (Target × List Nat)) (d d' : Doc)
    (hnd : d.nonSpaceTokens.Nodup) (hn : ∀ p ∈ ps, p.1.name ≠ []) (hv : PlacedInTurn env cfg d [] ps)
    (h : simpleAnnotate env cfg (ps.map Prod.fst) d = .ok d') :
    ∃ st, Placed cfg d ps st ∧ d' = (if cfg.extendToLineEnabled then extendDoc cfg st.doc else st.doc) := by
  obtain ⟨d1, left, hl, rfl⟩ := C19_aux env cfg _ d d' h
  have h0 : Placed cfg d [] ⟨d, pendingOfDoc d, none, []⟩ :=
    ⟨rfl, rfl, .refl d, (fun i hi => by cases hi), (fun i _ => rfl), (fun p hp => by cases hp)⟩
  cases ps with
  | nil =>
    refine ⟨_, h0, ?_⟩
    cases hl
    rfl
  | cons p ps =>
    rw [List.map_cons, List.length_cons, annotateLoop] at hl
    split at hl
    · cases hl
    next dR rem hR =>
    unfold processTargetAnnotations at hR
    simp only [] at hR
    split at hR
    · cases hR
    next st hst =>
    cases hR
    have hpl := Placed.steps he hm hnd (p :: ps) [] _ st h0 (by simpa using hn) hv hst
    rw [List.nil_append] at hpl
    refine ⟨st, hpl, ?_⟩
    rw [hpl.none_left] at hl
    split at hl
    · next hlen => cases hlen
    · unfold annotateLoop at hl
      cases hl
      rfl

/-- **C141.** If each value occurs at its place in the text which is left by the values before it, then all tokens of all
places have the label of their value. -/
theorem C141_all (env : MatchEnv) (cfg : MatchCfg) (he : ExactEnv env cfg) (hm : cfg.mainTags = true) (ps : List (Target × List Nat)) (d d' : Doc)
    (hnd : d.nonSpaceTokens.Nodup) (hproper : ∀ i, ProperTag (d.getTag i))
    (hn : ∀ p ∈ ps, p.1.name ≠ [] ∧ tagValue (some p.1.name) = some p.1.name) (hv : PlacedInTurn env cfg d [] ps)
    (h : simpleAnnotate env cfg (ps.map Prod.fst) d = .ok d') :
    ∀ p ∈ ps, ∀ i ∈ p.2, tagValue (d'.getTag i) = some p.1.name := by
  obtain ⟨st, hpl, rfl⟩ := annotate_placed env cfg he hm ps d d' hnd (fun p hp => (hn p hp).1) hv h
  have hst : ∀ p ∈ ps, ∀ i ∈ p.2, tagValue (st.doc.getTag i) = some p.1.name := by
    intro p hp i hi
    obtain ⟨k, hk⟩ := List.mem_iff_getElem?.1 hi
    rw [hpl.tags p hp k i hk, ← stripTagPrefix_eq_tagValue]
    exact indexTag_strip cfg _ k (hn p hp).1 (hn p hp).2
  have hpst : ∀ i, ProperTag (st.doc.getTag i) := by
    intro i
    by_cases hi : i ∈ ps.flatMap Prod.snd
    · obtain ⟨p, hp, hip⟩ := List.mem_flatMap.1 hi
      obtain ⟨k, hk⟩ := List.mem_iff_getElem?.1 hip
      rw [hpl.tags p hp k i hk]
      refine (indexTag_value cfg _ k ?_).1
      rintro s ⟨⟩
      exact ⟨(hn p hp).1, by rw [(hn p hp).2]; simpa using (hn p hp).1⟩
    · rw [hpl.other i hi]; exact hproper i
  intro p hp i hi
  split
  · rw [extendDoc_keeps cfg st.doc (by rw [hpl.same.nonSpaceTokens]; exact hnd) hpst i ?_]
    · exact hst p hp i hi
    · intro h0
      have := hst p hp i hi
      rw [h0] at this
      cases this
  · exact hst p hp i hi

/-- **C141**, exactly, if labels are not extended to lines: the first token of a place begins the label and the others
continue it, and no other token is changed. -/
theorem C141_exact (env : MatchEnv) (cfg : MatchCfg) (he : ExactEnv env cfg) (hm : cfg.mainTags = true) (hx : cfg.extendToLineEnabled = false)
    (hb : cfg.useBeginPrefix = true) (ps : List (Target × List Nat)) (d d' : Doc)
    (hnd : d.nonSpaceTokens.Nodup) (hn : ∀ p ∈ ps, p.1.name ≠ []) (hv : PlacedInTurn env cfg d [] ps)
    (h : simpleAnnotate env cfg (ps.map Prod.fst) d = .ok d') :
    (∀ p ∈ ps, ∀ k j, p.2[k]? = some j → d'.getTag j = some ((if k = 0 then c!"b-" else c!"i-") ++ p.1.name)) ∧
    ∀ i, (∀ p ∈ ps, i ∉ p.2) → d'.getTag i = d.getTag i := by
  obtain ⟨st, hpl, rfl⟩ := annotate_placed env cfg he hm ps d d' hnd hn hv h
  rw [hx]
  refine ⟨?_, ?_⟩
  · intro p hp k j hj
    show st.doc.getTag j = _
    rw [hpl.tags p hp k j hj]
    unfold indexTag indexPrefix
    rw [if_pos hb]
    split
    · rw [addTagPrefix_of_truthy (hn p hp) (by decide)]; rfl
    · rw [addTagPrefix_of_truthy (hn p hp) (by decide)]; rfl
  · intro i hi
    refine hpl.other i ?_
    intro hm
    obtain ⟨p, hp, hip⟩ := List.mem_flatMap.1 hm
    exact hi p hp hip

/-! ### The tools -/

theorem placedInTurn_cfg {env : MatchEnv} {a : ToolArgs} {d : Doc} (us pr ex : Bool) (ps : List (Target × List Nat)) : ∀ (taken : List Nat),
    PlacedInTurn env (simpleCfg a false false true) d taken ps → PlacedInTurn env (simpleCfg a us pr ex) d taken ps := by
  induction ps with
  | nil => intro _ _; trivial
  | cons p ps ih => intro taken h; exact ⟨h.1, ih _ h.2⟩

theorem run_placed (env : ToolEnv) (a : ToolArgs) (t : Tool) (d d' : Doc)
    (he : ExactEnv env.simple (simpleCfg a false false true)) (ht : labelsByMatching a t)
    (ps : List (Target × List Nat)) (hx : a.targets = ps.map Prod.fst)
    (hn : ∀ y ∈ a.targets, y.name ≠ [] ∧ tagValue (some y.name) = some y.name)
    (hprop : ∀ j, ProperTag (d.getTag j)) (hnd : d.nonSpaceTokens.Nodup)
    (h1 : annotateAll (t.annotators env a) d = .ok d')
    (hv : PlacedInTurn env.simple (simpleCfg a false false true) d [] ps) (p : Target × List Nat) (hp : p ∈ ps)
    (hrep : (∃ p q r, t = .fulltext p q r) → p.1.name ≠ c!"note_other" ∧ p.1.name ≠ c!"note[@type=\"other\"]") :
    ∀ i ∈ p.2, tagValue (d'.getTag i) = some p.1.name := by
  have hps : ∀ p ∈ ps, p.1.name ≠ [] ∧ tagValue (some p.1.name) = some p.1.name := fun p hp =>
    hn p.1 (by rw [hx]; exact List.mem_map.2 ⟨p, hp, rfl⟩)
  refine run_keeps_label env a t d d' ht p.1.name (hps p hp).1 hrep h1 (fun z => ∀ i ∈ p.2, tagValue (z.getTag i) = some p.1.name) ?_ ?_
  · intro us pr ex z hz
    rw [hx] at hz
    exact C141_all env.simple (simpleCfg a us pr ex) ⟨he.good, he.lsm, he.diff, he.rnd, he.re, he.thresholdPos, he.thresholdLe⟩
      rfl ps d z hnd hprop hps (placedInTurn_cfg us pr ex ps [] hv) hz p hp
  · intro z z' hz hzz i hi
    have := hz i hi
    rw [← stripTagPrefix_eq_tagValue] at this ⊢
    exact hzz i this

/-- **C141.** The tools label all values at their places in the document which is written. -/
theorem C141_tool (env : ToolEnv) (a : ToolArgs) (t : Tool) (cfg : DocCfg) (passes : Doc → Except Err Bool)
    (root root' : Elem) (target path : Str) (failed : Option Str)
    (he : ExactEnv env.simple (simpleCfg a false false true)) (ht : labelsByMatching a t)
    (hn : ∀ y ∈ a.targets, y.name ≠ [] ∧ tagValue (some y.name) = some y.name)
    (h : t.run env a cfg passes root target failed = .ok (some (path, root'))) :
    ∃ d0 d', loadDoc { cfg with preserveTags := true } root = .ok d0 ∧ docRoot cfg root d' = .ok root' ∧
      let d := beforeAnnotator (t.annotateCfg a) d0
      ((∀ j, ProperTag (d0.getPreservedTag j)) → ∀ ps, a.targets = ps.map Prod.fst →
        PlacedInTurn env.simple (simpleCfg a false false true) d [] ps →
        ∀ p ∈ ps, ((∃ p q r, t = .fulltext p q r) → p.1.name ≠ c!"note_other" ∧ p.1.name ≠ c!"note[@type=\"other\"]") →
          ∀ i ∈ p.2, tagValue (d'.getTag i) = some p.1.name) := by
  obtain ⟨d0, d', h0, h1, h2, _⟩ := run_steps h
  refine ⟨d0, d', h0, h2, ?_⟩
  intro d hp ps hx hv p hpp hrep
  exact run_placed env a t d d' he ht ps hx hn (before_proper _ h0 hp) (nodup_loadDoc h0 (Props.C14_aux_sameBut _ _)).2 h1 hv p hpp hrep

/-! ### Reading back -/

theorem infix_of_sublist {F place ts : List Nat} (hnd : F.Nodup) (hp : place.Sublist F) (hts : ts <:+: F) (hsub : ∀ i ∈ ts, i ∈ place) : ts <:+: place := by
  have e : F.filter (fun i => decide (i ∈ place)) = place := by
    clear hts hsub
    induction hp with
    | slnil => rfl
    | @cons l1 l2 a h ih =>
      rw [List.nodup_cons] at hnd
      rw [List.filter_cons_of_neg, ih hnd.2]
      intro hm
      exact hnd.1 (h.subset (of_decide_eq_true hm))
    | @cons_cons l1 l2 a h ih =>
      rw [List.nodup_cons] at hnd
      rw [List.filter_cons_of_pos (by simp)]
      congr 1
      conv => rhs; rw [← ih hnd.2]
      refine List.filter_congr (fun i hi => ?_)
      have : i ≠ a := fun h => hnd.1 (h ▸ hi)
      simp [this]
  obtain ⟨A, B, hAB⟩ := hts
  rw [← e, ← hAB, List.filter_append, List.filter_append, List.filter_eq_self.2 (fun i hi => decide_eq_true (hsub i hi))]
  exact ⟨_, _, rfl⟩

/-- The tokens of the place spell the value. -/
theorem ValueAt_spelled {env : MatchEnv} {cfg : MatchCfg} (he : ExactEnv env cfg) {d : Doc} (hnd : d.nonSpaceTokens.Nodup) {taken : List Nat} {t : Target}
    {place : List Nat} (h : ValueAt env cfg d taken t place) (hg : ∀ seqs, ∀ g ∈ tokenGaps d seqs, noSpace g = []) :
    ∃ v, t.value = .one v ∧ ∃ ts, ts <:+: place ∧
      noSpace (normaliseStr env.lower v) <:+: noSpace (ts.flatMap (fun i => normaliseStr env.lower (d.getText env.cc i))) := by
  obtain ⟨_, v, ho, hplace⟩ := h
  refine ⟨v, ho.1, ?_⟩
  obtain ⟨r, hr, hr1, hr2, hr3⟩ := C126_range env cfg he t v _ ho
  generalize hseqs : freeRuns d taken cfg.lookahead = seqs at ho hplace hr hr1 hr2 hr3
  have hne : ∀ s ∈ seqs, s ≠ [] := by
    rw [← hseqs]
    intro s hs
    have hall : ∀ s ∈ (untaggedLines d).flatMap (runsWithout taken), s ≠ [] := by
      intro s hs
      obtain ⟨l, _, hs⟩ := List.mem_flatMap.1 hs
      unfold runsWithout at hs
      obtain ⟨g, hg', rfl⟩ := List.mem_map.1 hs
      exact (groupBy_uniform _ l g (List.mem_filter.1 hg').1).1
    unfold freeRuns at hs
    simp only [] at hs
    split at hs
    · exact hall s hs
    · exact hall s (List.mem_of_mem_take hs)
  obtain ⟨ranges, hlo, hb⟩ := C40_tokens_between (matchSeqEnv env) d seqs hne
  have hpl := hplace ranges r hlo hr1 hr2 hr3
  have hF : seqs.flatten.Nodup := by
    refine List.Nodup.sublist (by rw [← hseqs]; exact freeRuns_sub _ _ _) ?_
    show (pendingOfDoc d).flatten.Nodup
    rw [pendingOfDoc_flatten]
    exact hnd.sublist List.filter_sublist
  have hsub : place.Sublist seqs.flatten := by
    rw [← hpl, show tokensOverlapping seqs.flatten ranges r = seqTokensBetween (matchSeqEnv env) d r.1 r.2 seqs from (hb r.1 r.2).symm]
    exact seqTokensBetween_sublist _ _ _ _ _
  obtain ⟨m, n, h1, h2⟩ := covers_from _ r.1 r.2 hr1 _ _ _ 0 (laidFrom_zero hlo) (hg seqs) (Nat.zero_le _)
  rw [hr3] at h2
  refine ⟨(seqs.flatten.drop m).take n, infix_of_sublist hF hsub ((List.take_prefix _ _).isInfix.trans (List.drop_suffix _ _).isInfix) ?_, ?_⟩
  · intro i hi
    obtain ⟨k, hk, rfl⟩ := List.getElem_of_mem hi
    have hlen : ranges.length = seqs.flatten.length := by rw [hlo.length, List.length_map]
    rw [List.length_take, List.length_drop] at hk
    rw [List.getElem_take, List.getElem_drop]
    have hmk : m + k < ranges.length := by omega
    rw [← hpl]
    unfold tokensOverlapping
    refine List.mem_map.2 ⟨(seqs.flatten[m + k]'(by omega), ranges[m + k]), List.mem_filter.2 ⟨?_, h1 _ ?_⟩, rfl⟩
    · rw [List.mem_iff_getElem?]
      exact ⟨m + k, by rw [List.getElem?_zip_eq_some]; exact ⟨List.getElem?_eq_getElem _, List.getElem?_eq_getElem _⟩⟩
    · rw [List.mem_iff_getElem?]
      refine ⟨k, ?_⟩
      rw [List.getElem?_take_of_lt (by omega), List.getElem?_drop, List.getElem?_eq_getElem hmk]
  · rw [← List.map_drop, ← List.map_take, ← List.flatMap_def] at h2
    exact h2

theorem placedInTurn_mem {env : MatchEnv} {cfg : MatchCfg} {d : Doc} (ps : List (Target × List Nat)) : ∀ (taken : List Nat),
    PlacedInTurn env cfg d taken ps → ∀ p ∈ ps, ∃ taken', ValueAt env cfg d taken' p.1 p.2 := by
  induction ps with
  | nil => intro _ _ p hp; cases hp
  | cons q ps ih =>
    intro taken h p hp
    rcases List.mem_cons.1 hp with rfl | hp
    · exact ⟨taken, h.1⟩
    · exact ih _ h.2 p hp

/-- **C141.** All values can be read back from the file a tool has written, if their places are next to each other in
the document. -/
theorem C141_read_back (env : ToolEnv) (a : ToolArgs) (t : Tool) (cfg : DocCfg) (mains : List (Option Str))
    (passes : Doc → Except Err Bool) (root c root' : Elem) (target path : Str) (failed : Option Str)
    (he : ExactEnv env.simple (simpleCfg a false false true)) (hcc : env.simple.cc = cfg.cc)
    (ht : labelsByMatching a t) (hr : ¬ Spec.removesText t)
    (hn : ∀ y ∈ a.targets, y.name ≠ [] ∧ tagValue (some y.name) = some y.name)
    (hm : ReadableMapping cfg.mapping mains) (hread : Spec.readableLabels a t cfg.mapping mains)
    (hk : Spec.noneKept a t cfg root) (hc : findAll cfg.containerPath root = [c])
    (h : t.run env a cfg passes root target failed = .ok (some (path, root'))) :
    ∃ d0 d'', loadDoc { cfg with preserveTags := true } root = .ok d0 ∧
      loadDoc { cfg with preserveTags := true } root' = .ok d'' ∧
      let d := beforeAnnotator (t.annotateCfg a) d0
      (CommonSpace cfg.cc (tokenTexts d0) → ∀ ps, a.targets = ps.map Prod.fst →
        PlacedInTurn env.simple (simpleCfg a false false true) d [] ps →
        ∀ p ∈ ps, ((∃ p q r, t = .fulltext p q r) → p.1.name ≠ c!"note_other" ∧ p.1.name ≠ c!"note[@type=\"other\"]") →
          p.2 <:+: d.nonSpaceTokens →
          ∀ v, p.1.value = .one v → ReadBack cfg.cc env.simple.lower d'' (normaliseStr env.simple.lower v) p.1.name) := by
  obtain ⟨d0, d', d'', h0, h1, e1, e2⟩ :=
    C134_written env a t cfg mains passes root c root' target path failed hm hread hk hc h
  refine ⟨d0, d'', h0, e1, ?_⟩
  intro d hcs ps hx hv p hp hrep hnext v hval
  have hpn := (hn p.1 (by rw [hx]; exact List.mem_map.2 ⟨p, hp, rfl⟩)).1
  have hbare : d = Doc.ofLines ((tokenTexts d0).map (bareLine cfg.cc)) := before_noneKept hk h0
  have hnd : d.nonSpaceTokens.Nodup := (nodup_loadDoc h0 (Props.C14_aux_sameBut (t.annotateCfg a) d0)).2
  have hlab := run_placed env a t d d' he ht ps hx hn (by rw [hbare]; exact bare_proper _ _) hnd h1 hv p hp hrep
  obtain ⟨taken, hva⟩ := placedInTurn_mem ps [] hv p hp
  obtain ⟨v', hv', ts, hts, hsp⟩ := ValueAt_spelled he hnd hva (fun seqs => by rw [hbare]; exact gaps_bare hcs seqs)
  rw [hval] at hv'
  cases hv'
  have hs : SameBut d d' := keeps_annotateAll _ (tool_keeps env a t hr) _ _ h1
  obtain ⟨texts, r1, r2⟩ := spelled_readBack (seqs := [p.2]) hcc hbare hs (by simpa using hnext) hpn
    ⟨ts, by simpa using hts, fun i hi => hlab i (hts.subset hi), hsp⟩
  exact ⟨texts, by rw [e2]; exact r1, r2⟩

/-! ### An example -/

/-- The place of a value by trying all parts of the text. -/
theorem valueAt_of_check {env : MatchEnv} {cfg : MatchCfg} {d : Doc} {taken : List Nat} {t : Target} {place : List Nat} {v : Str}
    (hne : ∀ s ∈ freeRuns d taken cfg.lookahead, s ≠ []) (hpre : truthy (cfg.tagConfig t.name).matchPrefixRegex = false)
    (ho : OccursFor env cfg t v (seqsText (matchSeqEnv env) d (freeRuns d taken cfg.lookahead)))
    (hc : ∀ x ∈ List.range (seqsText (matchSeqEnv env) d (freeRuns d taken cfg.lookahead)).length,
      ∀ y ∈ List.range ((seqsText (matchSeqEnv env) d (freeRuns d taken cfg.lookahead)).length + 1),
        noSpace (slice (seqsText (matchSeqEnv env) d (freeRuns d taken cfg.lookahead)) x (y - x)) = noSpace (normaliseStr env.lower v) →
        seqTokensBetween (matchSeqEnv env) d x y (freeRuns d taken cfg.lookahead) = place) :
    ValueAt env cfg d taken t place := by
  refine ⟨hpre, v, ho, ?_⟩
  intro ranges r hlo h1 h2 h3
  obtain ⟨ranges', hlo', hb⟩ := C40_tokens_between (matchSeqEnv env) d _ hne
  rw [laidOut_unique hlo hlo', ← hc r.1 (List.mem_range.2 (by omega)) r.2 (List.mem_range.2 (by omega)) h3]
  exact (hb r.1 r.2).symm

def exAllArgs : ToolArgs :=
  { targets := [⟨c!"title", .one c!"some title", []⟩, ⟨c!"author", .one c!"author abc", []⟩], noPreserveTags := true }

/-- The conditions are met by the example file: the title and the author have places of their own. -/
example : ExactEnv exToolEnv.simple (simpleCfg exAllArgs false false true) ∧ exToolEnv.simple.cc = exReadCfg.cc ∧
    labelsByMatching exAllArgs .header ∧
    (∀ y ∈ exAllArgs.targets, y.name ≠ [] ∧ tagValue (some y.name) = some y.name) ∧
    Spec.noneKept exAllArgs .header exReadCfg exToolRoot ∧ (findAll exReadCfg.containerPath exToolRoot).length = 1 ∧
    (∃ r, Tool.header.run exToolEnv exAllArgs exReadCfg (fun _ => .ok true) exToolRoot c!"out" none = .ok (some r)) ∧
    ∃ d0, loadDoc { exReadCfg with preserveTags := true } exToolRoot = .ok d0 ∧
      CommonSpace exReadCfg.cc (tokenTexts d0) ∧
      let d := beforeAnnotator (Tool.header.annotateCfg exAllArgs) d0
      d.nonSpaceTokens = [0, 2, 4, 5, 7, 9] ∧
      PlacedInTurn exToolEnv.simple (simpleCfg exAllArgs false false true) d []
        [(⟨c!"title", .one c!"some title", []⟩, [2, 4]), (⟨c!"author", .one c!"author abc", []⟩, [7, 9])] := by
  refine ⟨exMatch_exact _ (by decide +kernel) (by decide +kernel), rfl, ⟨rfl, rfl, rfl⟩, by decide +kernel,
    keepsNothing_noneKept ⟨rfl, rfl, rfl, rfl⟩ _ _, rfl, ?_, ?_⟩
  · obtain ⟨r, hr, h⟩ := exists_of_okAnd (x := Tool.header.run exToolEnv exAllArgs exReadCfg (fun _ => .ok true) exToolRoot c!"out" none)
      (p := fun r => r.isSome = true) (by decide +kernel)
    obtain ⟨r', rfl⟩ := Option.isSome_iff_exists.1 h
    exact ⟨r', hr⟩
  · have key : ∃ d0, loadDoc { exReadCfg with preserveTags := true } exToolRoot = .ok d0 ∧
        tokenTexts d0 = [[c!"on", c!" ", c!"some", c!" ", c!"title"], [c!"by", c!" ", c!"author", c!" ", c!"abc"]] ∧
        (let d := beforeAnnotator (Tool.header.annotateCfg exAllArgs) d0
         d.nonSpaceTokens = [0, 2, 4, 5, 7, 9] ∧
         freeRuns d [] 200 = [[0, 2, 4], [5, 7, 9]] ∧ freeRuns d [2, 4] 200 = [[0], [5, 7, 9]] ∧
         seqsText (matchSeqEnv exToolEnv.simple) d [[0, 2, 4], [5, 7, 9]] = c!"on some title\nby author abc" ∧
         seqsText (matchSeqEnv exToolEnv.simple) d [[0], [5, 7, 9]] = c!"on\nby author abc" ∧
         (∀ x ∈ List.range 27, ∀ y ∈ List.range 28,
           noSpace (slice c!"on some title\nby author abc" x (y - x)) = c!"sometitle" →
           seqTokensBetween (matchSeqEnv exToolEnv.simple) d x y [[0, 2, 4], [5, 7, 9]] = [2, 4]) ∧
         (∀ x ∈ List.range 16, ∀ y ∈ List.range 17,
           noSpace (slice c!"on\nby author abc" x (y - x)) = c!"authorabc" →
           seqTokensBetween (matchSeqEnv exToolEnv.simple) d x y [[0], [5, 7, 9]] = [7, 9])) :=
      exists_of_okAnd (by decide +kernel)
    obtain ⟨d0, h0, h1, h2, h3, h4, h5, h6, h7, h8⟩ := key
    refine ⟨d0, h0, ?_, h2, ?_, ?_, trivial⟩
    · rw [h1]
      unfold CommonSpace
      decide +kernel
    · have e : freeRuns (beforeAnnotator (Tool.header.annotateCfg exAllArgs) d0) [] (simpleCfg exAllArgs false false true).lookahead = _ := h3
      refine valueAt_of_check (v := c!"some title") (by rw [e]; decide +kernel) rfl ?_ ?_
      · rw [e, h5]
        refine ⟨rfl, by decide, .inl (by decide), .inr ⟨by decide +kernel, by decide +kernel, by decide +kernel, by decide +kernel⟩, ?_⟩
        intro _
        exact onlyLiteral_short _ _ _ (by decide +kernel) (by decide +kernel)
      · rw [e, h5]
        rw [show noSpace (normaliseStr exToolEnv.simple.lower c!"some title") = c!"sometitle" by decide +kernel]
        exact h7
    · have e : freeRuns (beforeAnnotator (Tool.header.annotateCfg exAllArgs) d0) ([] ++ [2, 4]) (simpleCfg exAllArgs false false true).lookahead = _ := h4
      refine valueAt_of_check (v := c!"author abc") (by rw [e]; decide +kernel) rfl ?_ ?_
      · rw [e, h6]
        refine ⟨rfl, by decide, .inl (by decide), .inr ⟨by decide +kernel, by decide +kernel, by decide +kernel, by decide +kernel⟩, ?_⟩
        intro _
        exact onlyLiteral_short _ _ _ (by decide +kernel) (by decide +kernel)
      · rw [e, h6]
        rw [show noSpace (normaliseStr exToolEnv.simple.lower c!"author abc") = c!"authorabc" by decide +kernel]
        exact h8

/-- Both are labelled, with what completes their lines. -/
example : ∃ d', loadAndAnnotate exToolEnv exAllArgs .header exReadCfg exToolRoot = .ok d' ∧
    d'.nonSpaceTokens.map (fun i => d'.getTag i) =
      [some c!"b-title", some c!"i-title", some c!"i-title", some c!"b-author", some c!"i-author", some c!"i-author"] :=
  exists_of_okAnd (by decide +kernel)

end Verif
