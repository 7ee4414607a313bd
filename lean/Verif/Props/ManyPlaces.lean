/-
C133: the values of a list which occur literally are labelled where they occur.
-/
import Verif.Spec.ManyPlaces
import Verif.Props.LiteralPlace

namespace Verif
open Spec

theorem findMany_places (env : MatchEnv) (cfg : MatchCfg) (he : ExactEnv env cfg) (name text : Str) (vs : List Str)
    (h : ∀ v ∈ vs, OccursText env cfg v text ∨ Missing env cfg name text v) :
    ∃ places, findMany env cfg (cfg.tagConfig name).alternativeSpellings text vs = .ok places ∧
      PlacesOf env.lower text (Missing env cfg name text) vs places ∧
      ((∃ v ∈ vs, OccursText env cfg v text) → places ≠ []) ∧ ∀ p ∈ places, p.1 < p.2 := by
  induction vs with
  | nil => exact ⟨[], rfl, .nil, (by rintro ⟨v, hv, _⟩; cases hv), (by intro p hp; cases hp)⟩
  | cons v vs ih =>
    obtain ⟨places, h1, h2, h3, h4⟩ := ih (fun w hw => h w (List.mem_cons_of_mem _ hw))
    rw [findMany.eq_2]
    by_cases ho : OccursText env cfg v text
    · obtain ⟨r, e, hr⟩ := literal_alternatives env cfg he 1 (cfg.tagConfig name).alternativeSpellings v text ho (.inl (Int.le_refl 1))
      refine ⟨r :: places, ?_, .found v r vs places hr h2, fun _ => by simp, ?_⟩
      · rw [e, h1]; rfl
      · intro p hp
        rcases List.mem_cons.1 hp with rfl | hp
        · exact hr.1
        · exact h4 p hp
    · have hm := (h v List.mem_cons_self).resolve_left ho
      refine ⟨places, ?_, .missing v vs places hm h2, ?_, h4⟩
      · unfold Missing at hm
        rw [hm, h1]; rfl
      · rintro ⟨w, hw, hwo⟩
        rcases List.mem_cons.1 hw with rfl | hw
        · exact absurd hwo ho
        · exact h3 ⟨w, hw, hwo⟩

/-- For a list of values one range is found: it goes from the first to the last place of a group of places, one
for each of the values. -/
theorem C133_range (env : MatchEnv) (cfg : MatchCfg) (he : ExactEnv env cfg) (t : Target) (vs : List Str) (text : Str)
    (h : ManyOccur env cfg t vs text) :
    ∃ (places selected : List (Nat × Nat)) (r : Nat × Nat), matchingRanges env cfg text t = .ok [r] ∧
      PlacesOf env.lower text (Missing env cfg t.name text) vs places ∧ SelectedOf places selected ∧ SpanOf selected r := by
  obtain ⟨hv, hall, hex⟩ := h
  obtain ⟨places, h1, h2, h3, h4⟩ := findMany_places env cfg he t.name text vs hall
  have hne := h3 hex
  obtain ⟨before, selected, after, un, e, c1, c2, c3, c4, c5, c6, _⟩ := C57_select places hne (fun p hp => Nat.le_of_lt (h4 p hp))
  obtain ⟨s, x, m1, m2, m3, m4⟩ := C57_merge selected (c3 selected (by simp)).1
  refine ⟨places, selected, (s, x), ?_, h2, ⟨before, after, c1, c2, c3, c4, c5, c6⟩, m2, m3, m4⟩
  unfold matchingRanges
  simp only [hv]
  rw [h1]
  cases places with
  | nil => exact absurd rfl hne
  | cons p ps =>
    simp only []
    rw [e]
    simp only []
    rw [m1]

/-- The list of values is labelled when its turn comes, as in `C126_in_turn`. -/
theorem C133_in_turn (env : MatchEnv) (cfg : MatchCfg) (he : ExactEnv env cfg) (hm : cfg.mainTags = true)
    (before after : List Target) (t : Target) (vs : List Str) (d d' : Doc)
    (hnd : d.nonSpaceTokens.Nodup) (hp : ∀ i, ProperTag (d.getTag i))
    (hn : ∀ t' ∈ before ++ t :: after, t'.name ≠ [] ∧ tagValue (some t'.name) = some t'.name)
    (h : simpleAnnotate env cfg (before ++ t :: after) d = .ok d')
    (st : MatchState) (hst : processTargets env cfg (pendingOfDoc d) ⟨d, pendingOfDoc d, none, []⟩ before = .ok st)
    (seqs : List (List Nat))
    (hs : seqs = pendingSequences st.doc st.current (some cfg.lookahead) ∨
      (matchingRanges env cfg (seqsText (matchSeqEnv env) st.doc (pendingSequences st.doc st.current (some cfg.lookahead))) t = .ok [] ∧
        st.block ≠ pyOr (cfg.tagConfig t.name).blockName (some c!"default") ∧
        seqs = pendingSequences st.doc (pendingOfDoc d) none))
    (hne : ∀ s ∈ seqs, s ≠ [])
    (ho : ManyOccur env cfg t vs (seqsText (matchSeqEnv env) st.doc seqs)) :
    ManyLabelled env cfg st.doc d' seqs vs t.name := by
  obtain ⟨places, selected, r, hr, h1, h2, h3⟩ := C133_range env cfg he t vs _ ho
  exact ⟨places, selected, r, h1, h2, h3,
    in_turn_range env cfg he hm before after t d d' hnd hp hn h st hst seqs hs hne r hr⟩

/-- The list of values is labelled if nothing is found for the target annotations before it, as in `C126_first`. -/
theorem C133_first (env : MatchEnv) (cfg : MatchCfg) (he : ExactEnv env cfg) (hm : cfg.mainTags = true)
    (before after : List Target) (t : Target) (vs : List Str) (d d' : Doc)
    (hnd : d.nonSpaceTokens.Nodup) (hp : ∀ i, ProperTag (d.getTag i))
    (hn : ∀ t' ∈ before ++ t :: after, t'.name ≠ [] ∧ tagValue (some t'.name) = some t'.name)
    (hu : ∀ t' ∈ before, matchingRanges env cfg (seqsText (matchSeqEnv env) d (firstLines d cfg.lookahead)) t' = .ok [] ∧
      matchingRanges env cfg (seqsText (matchSeqEnv env) d (untaggedLines d)) t' = .ok [])
    (h : simpleAnnotate env cfg (before ++ t :: after) d = .ok d') :
    (ManyOccur env cfg t vs (seqsText (matchSeqEnv env) d (firstLines d cfg.lookahead)) →
      ManyLabelled env cfg d d' (firstLines d cfg.lookahead) vs t.name) ∧
    (matchingRanges env cfg (seqsText (matchSeqEnv env) d (firstLines d cfg.lookahead)) t = .ok [] →
      ManyOccur env cfg t vs (seqsText (matchSeqEnv env) d (untaggedLines d)) →
      ManyLabelled env cfg d d' (untaggedLines d) vs t.name) := by
  have hst := processTargets_unfound env cfg d before [] hu
  have main := C133_in_turn env cfg he hm before after t vs d d' hnd hp hn h _ hst
  simp only [] at main
  rw [pendingSequences_first, pendingSequences_self] at main
  constructor
  · intro ho
    exact main _ (.inl rfl) (firstLines_ne d _) ho
  · intro h0 ho
    exact main _ (.inr ⟨h0, pyOr_default _ _, rfl⟩) (untaggedLines_ne d) ho

/-! ### Places which are close together -/

theorem SpanOf_perm {c : List (Nat × Nat)} {places : List (Nat × Nat)} {r : Nat × Nat}
    (hp : c.Perm places) (h : SpanOf c r) : SpanOf places r :=
  ⟨fun p hq => h.1 p (hp.mem_iff.2 hq), h.2.1.elim fun p hq => ⟨p, hp.mem_iff.1 hq.1, hq.2⟩,
    h.2.2.elim fun p hq => ⟨p, hp.mem_iff.1 hq.1, hq.2⟩⟩

theorem groupLength_nonneg (c : List (Nat × Nat)) (hne : c ≠ []) (ho : InOrder c) (hv : ∀ p ∈ c, p.1 ≤ p.2) :
    0 ≤ groupLength c := by
  obtain ⟨a, l, rfl⟩ := List.exists_cons_of_ne_nil hne
  unfold groupLength groupEnd Spec.groupStart
  rw [List.getLast?_eq_some_getLast hne]
  simp only [List.head?_cons, Option.map_some, Option.getD_some]
  have h1 := hv _ (List.getLast_mem hne)
  have h2 : a.1 ≤ ((a :: l).getLast hne).1 := by
    rcases List.mem_cons.1 (List.getLast_mem hne) with e | e
    · rw [e]; exact Nat.le_refl _
    · rcases (List.pairwise_cons.1 ho).1 _ e with h | ⟨h, _⟩ <;> omega
  omega

/-- Places which are close together make a single group. -/
theorem C133_one_group (places selected : List (Nat × Nat)) (hv : ∀ p ∈ places, p.1 ≤ p.2)
    (hc : CloseTogether places) (h : SelectedOf places selected) : selected.Perm places ∧ InOrder selected := by
  obtain ⟨before, after, c1, c2, c3, c4, _, _⟩ := h
  generalize hg : before ++ selected :: after = groups at c1 c2 c3 c4
  match groups, hg with
  | [c], hg =>
    cases before with
    | nil =>
      obtain ⟨rfl, rfl⟩ := List.cons.inj hg
      rw [List.flatten_cons, List.flatten_nil, List.append_nil] at c1 c2
      exact ⟨c1, c2⟩
    | cons b bs =>
      have := (List.cons.inj hg).2
      simp at this
  | [], hg => simp at hg
  | c :: c' :: cs, hg =>
    exfalso
    refine c4.1 ?_
    have hcne := (c3 c (by simp)).1
    have hcne' := (c3 c' (by simp)).1
    have hsub : ∀ e ∈ c :: c' :: cs, InOrder e ∧ ∀ p ∈ e, p.1 ≤ p.2 := by
      intro e hmem
      refine ⟨List.Pairwise.sublist (List.sublist_flatten_of_mem hmem) c2, fun p hp => hv p (c1.mem_iff.1 ?_)⟩
      exact List.mem_flatten.2 ⟨e, hmem, hp⟩
    have g1 := groupLength_nonneg c hcne (hsub c (by simp)).1 (hsub c (by simp)).2
    obtain ⟨q, m, rfl⟩ := List.exists_cons_of_ne_nil hcne'
    have hsplit : (c :: (q :: m) :: cs).flatten = c.dropLast ++ c.getLast hcne :: q :: (m ++ cs.flatten) := by
      conv => lhs; rw [List.flatten_cons, ← List.dropLast_concat_getLast hcne]
      simp
    have := hc c.dropLast (m ++ cs.flatten) (c.getLast hcne) q (by rw [← hsplit]; exact c1) (by rw [← hsplit]; exact c2)
    unfold Close
    have e1 : groupEnd c = ((c.getLast hcne).2 : Nat) := by
      unfold groupEnd
      rw [List.getLast?_eq_some_getLast hcne]; rfl
    have e2 : Spec.groupStart (q :: m) = (q.1 : Nat) := rfl
    rw [e1, e2]
    omega

theorem Spec.PlacesOf.valid {lower : Str → Str} {text : Str} {missing : Str → Prop} {vs : List Str} {places : List (Nat × Nat)}
    (h : PlacesOf lower text missing vs places) : ∀ p ∈ places, p.1 ≤ p.2 := by
  induction h with
  | nil => intro p hp; cases hp
  | found v r vs rs hr _ ih =>
    intro p hp
    rcases List.mem_cons.1 hp with rfl | hp
    · exact Nat.le_of_lt hr.1
    · exact ih p hp
  | missing _ _ _ _ _ ih => exact ih

theorem Spec.PlacesOf.place {lower : Str → Str} {text : Str} {missing : Str → Prop} {vs : List Str} {places : List (Nat × Nat)}
    (h : PlacesOf lower text missing vs places) :
    ∀ v ∈ vs, ¬ missing v → ∃ p ∈ places, PlaceOf text (normaliseStr lower v) p := by
  induction h with
  | nil => intro p hp; cases hp
  | found v r vs rs hr _ ih =>
    intro w hw hm
    rcases List.mem_cons.1 hw with rfl | hw
    · exact ⟨r, List.mem_cons_self, hr⟩
    · obtain ⟨p, hp, h⟩ := ih w hw hm
      exact ⟨p, List.mem_cons_of_mem _ hp, h⟩
  | missing v vs rs hm _ ih =>
    intro w hw hnm
    rcases List.mem_cons.1 hw with rfl | hw
    · exact absurd hm hnm
    · exact ih w hw hnm

theorem Spec.PlacesOf.mem {lower : Str → Str} {text : Str} {missing : Str → Prop} {vs : List Str} {places : List (Nat × Nat)}
    (h : PlacesOf lower text missing vs places) :
    ∀ p ∈ places, ∃ v ∈ vs, PlaceOf text (normaliseStr lower v) p := by
  induction h with
  | nil => intro p hp; cases hp
  | found v r vs rs hr _ ih =>
    intro p hp
    rcases List.mem_cons.1 hp with rfl | hp
    · exact ⟨v, List.mem_cons_self, hr⟩
    · obtain ⟨w, hw, h⟩ := ih p hp
      exact ⟨w, List.mem_cons_of_mem _ hw, h⟩
  | missing v vs rs hm _ ih =>
    intro p hp
    obtain ⟨w, hw, h⟩ := ih p hp
    exact ⟨w, List.mem_cons_of_mem _ hw, h⟩

theorem closeTogether_of (places : List (Nat × Nat)) (h : ∀ p ∈ places, ∀ q ∈ places, q.1 ≤ p.2 + 10) :
    CloseTogether places := by
  intro l r p q hp _
  exact h p (hp.mem_iff.1 (by simp)) q (hp.mem_iff.1 (by simp))

/-- If the places of the values are close together wherever they are found (such as if each of them occurs once),
then each of the values is labelled where it occurs. -/
theorem C133_each (env : MatchEnv) (cfg : MatchCfg) (d d' : Doc) (seqs : List (List Nat)) (vs : List Str) (label : Str)
    (hc : ∀ places, PlacesOf env.lower (seqsText (matchSeqEnv env) d seqs) (Missing env cfg label (seqsText (matchSeqEnv env) d seqs)) vs places →
      CloseTogether places)
    (h : ManyLabelled env cfg d d' seqs vs label) :
    ∀ v ∈ vs, ¬ Missing env cfg label (seqsText (matchSeqEnv env) d seqs) v →
      LabelledAt env d d' seqs (normaliseStr env.lower v) label := by
  obtain ⟨places, selected, r, h1, h2, h3, ranges, h4, h5⟩ := h
  intro v hv hm
  obtain ⟨p, hp, p1, p2, p3⟩ := h1.place v hv hm
  have hsp := SpanOf_perm (C133_one_group places selected h1.valid (hc places h1) h2).1 h3
  refine ⟨ranges, p, h4, p1, p2, p3, ?_⟩
  intro x hx hov
  refine h5 x hx ?_
  have := hsp.1 p hp
  unfold overlaps at hov ⊢
  simp only [Bool.and_eq_true, decide_eq_true_eq] at hov ⊢
  omega

/-! ### The tools -/

theorem findFirst_cfg (env : MatchEnv) (a : ToolArgs) (us ps ex : Bool) (n : Int) (text : Str) (vs : List Str) :
    findFirst env (simpleCfg a us ps ex) n text vs = findFirst env (simpleCfg a false false true) n text vs := by
  induction vs with
  | nil => rfl
  | cons v vs ih =>
    rw [findFirst.eq_2, findFirst.eq_2, ih]
    rfl

theorem run_many_label (env : ToolEnv) (a : ToolArgs) (t : Tool) (d d' : Doc)
    (he : ExactEnv env.simple (simpleCfg a false false true)) (ht : labelsByMatching a t)
    (x : Target) (after : List Target) (vs : List Str) (hx : a.targets = x :: after)
    (hn : ∀ y ∈ a.targets, y.name ≠ [] ∧ tagValue (some y.name) = some y.name)
    (hrep : (∃ p q r, t = .fulltext p q r) → x.name ≠ c!"note_other" ∧ x.name ≠ c!"note[@type=\"other\"]")
    (hprop : ∀ j, ProperTag (d.getTag j)) (hnd : d.nonSpaceTokens.Nodup)
    (h1 : annotateAll (t.annotators env a) d = .ok d')
    (ho : ManyOccur env.simple (simpleCfg a false false true) x vs (seqsText (matchSeqEnv env.simple) d (firstLines d a.lookahead))) :
    ManyLabelled env.simple (simpleCfg a false false true) d d' (firstLines d a.lookahead) vs x.name := by
  have hxn := hn x (by rw [hx]; exact List.mem_cons_self)
  refine run_keeps_label env a t d d' ht x.name hxn.1 hrep h1
    (fun z => ManyLabelled env.simple (simpleCfg a false false true) d z (firstLines d a.lookahead) vs x.name) ?_ ?_
  · intro us ps ex z hz
    rw [hx] at hz
    have hmiss : ∀ text v, Missing env.simple (simpleCfg a us ps ex) x.name text v ↔
        Missing env.simple (simpleCfg a false false true) x.name text v := by
      intro text v
      unfold Missing findWithAlternatives
      rw [findFirst_cfg env.simple a us ps ex]
      exact Iff.rfl
    have ho' : ManyOccur env.simple (simpleCfg a us ps ex) x vs (seqsText (matchSeqEnv env.simple) d (firstLines d a.lookahead)) :=
      ⟨ho.1, fun v hv => (ho.2.1 v hv).imp id (fun h => (hmiss _ _).2 h), ho.2.2⟩
    obtain ⟨places, selected, r, b1, b2⟩ := (C133_first env.simple (simpleCfg a us ps ex)
      ⟨he.good, he.lsm, he.diff, he.rnd, he.re, he.thresholdPos, he.thresholdLe⟩
      rfl [] after x vs d z hnd hprop (fun y hy => hn y (by rw [hx]; exact hy)) (fun y hy => by cases hy) hz).1 ho'
    refine ⟨places, selected, r, ?_, b2⟩
    rw [show Missing env.simple (simpleCfg a us ps ex) x.name _ = _ from funext fun v => propext (hmiss _ v)] at b1
    exact b1
  · rintro z z' ⟨places, selected, r, b1, b2, b3, ranges, b4, b5⟩ hz
    refine ⟨places, selected, r, b1, b2, b3, ranges, b4, ?_⟩
    intro y hy hov
    have := b5 y hy hov
    rw [← stripTagPrefix_eq_tagValue] at this ⊢
    exact hz y.1 this

/-- **C133.** The tools label a list of values of the first target annotation: each of the values occurs literally
in the file (in the lines up to the lookahead, and their tokens without label), or is not found. Each token from the
first to the last one of a group of places of the values has the label in the document which is written. -/
theorem C133_tool (env : ToolEnv) (a : ToolArgs) (t : Tool) (cfg : DocCfg) (passes : Doc → Except Err Bool)
    (root root' : Elem) (target path : Str) (failed : Option Str)
    (he : ExactEnv env.simple (simpleCfg a false false true)) (ht : labelsByMatching a t)
    (x : Target) (after : List Target) (vs : List Str) (hx : a.targets = x :: after)
    (hn : ∀ y ∈ a.targets, y.name ≠ [] ∧ tagValue (some y.name) = some y.name)
    (hrep : (∃ p q r, t = .fulltext p q r) → x.name ≠ c!"note_other" ∧ x.name ≠ c!"note[@type=\"other\"]")
    (h : t.run env a cfg passes root target failed = .ok (some (path, root'))) :
    ∃ d0 d', loadDoc { cfg with preserveTags := true } root = .ok d0 ∧ docRoot cfg root d' = .ok root' ∧
      let d := beforeAnnotator (t.annotateCfg a) d0
      ((∀ j, ProperTag (d0.getPreservedTag j)) →
        ManyOccur env.simple (simpleCfg a false false true) x vs (seqsText (matchSeqEnv env.simple) d (firstLines d a.lookahead)) →
        ManyLabelled env.simple (simpleCfg a false false true) d d' (firstLines d a.lookahead) vs x.name) := by
  obtain ⟨d0, d', h0, h1, h2, _⟩ := run_steps h
  refine ⟨d0, d', h0, h2, ?_⟩
  intro d hp ho
  exact run_many_label env a t d d' he ht x after vs hx hn hrep (before_proper _ h0 hp)
    (nodup_loadDoc h0 (Props.C14_aux_sameBut _ _)).2 h1 ho

/-! ### Examples -/

/-- The arguments of the example: a list of values for one target annotation. -/
def exManyArgs : ToolArgs := { targets := [⟨c!"author", .many [c!"author", c!"xyz", c!"abc"], []⟩] }

/-- Two of the values occur in the text of the lines of the example file, one is not found. -/
example : (∃ d0, loadDoc { exToolCfg with preserveTags := true } exToolRoot = .ok d0 ∧
      let d := beforeAnnotator (Tool.header.annotateCfg exManyArgs) d0
      seqsText (matchSeqEnv exMatchEnv) d (firstLines d 200) = c!"on some title\nby author abc") ∧
    ManyOccur exMatchEnv (simpleCfg exManyArgs false false true) ⟨c!"author", .many [c!"author", c!"xyz", c!"abc"], []⟩
      [c!"author", c!"xyz", c!"abc"] c!"on some title\nby author abc" ∧
    labelsByMatching exManyArgs .header := by
  have h1 : OccursText exMatchEnv (simpleCfg exManyArgs false false true) c!"author" c!"on some title\nby author abc" :=
    ⟨by decide, .inr ⟨by decide +kernel, by decide +kernel, by decide +kernel, by decide +kernel⟩,
      fun _ => onlyLiteral_short _ _ _ (by decide +kernel) (by decide +kernel)⟩
  have h2 : OccursText exMatchEnv (simpleCfg exManyArgs false false true) c!"abc" c!"on some title\nby author abc" :=
    ⟨by decide, .inl ⟨by decide +kernel, by decide +kernel, c!"on some title by author ", [], by decide +kernel,
      .inr ⟨c!"on some title by author", ' ', rfl, by decide +kernel⟩, .inl rfl⟩, fun h => absurd h (by decide +kernel)⟩
  refine ⟨exists_of_okAnd (by decide +kernel), ⟨rfl, ?_, _, List.mem_cons_self, h1⟩, rfl, rfl, rfl⟩
  intro v hv
  simp only [List.mem_cons, List.not_mem_nil, or_false] at hv
  rcases hv with rfl | rfl | rfl
  · exact .inl h1
  · exact .inr (by unfold Missing; decide +kernel)
  · exact .inl h2

/-- Wherever the values are found in the text of the example, their places are close together. -/
example (missing : Str → Prop) (places : List (Nat × Nat))
    (h : PlacesOf exMatchEnv.lower c!"on some title\nby author abc" missing [c!"author", c!"xyz", c!"abc"] places) :
    CloseTogether places := by
  have key : ∀ i < 28, ∀ j < 28, ∀ v ∈ [c!"author", c!"xyz", c!"abc"],
      noSpace (slice c!"on some title\nby author abc" i (j - i)) = noSpace (normaliseStr exMatchEnv.lower v) →
      i ≤ 24 ∧ 23 ≤ j := by decide +kernel
  refine closeTogether_of _ (fun p hp q hq => ?_)
  obtain ⟨v, hv, p1, p2, p3⟩ := h.mem p hp
  obtain ⟨w, hw, q1, q2, q3⟩ := h.mem q hq
  have hl : (c!"on some title\nby author abc").length = 27 := by decide
  have := key p.1 (by omega) p.2 (by omega) v hv p3
  have := key q.1 (by omega) q.2 (by omega) w hw q3
  omega

/-- Both values are labelled, and what completes their line. -/
example : ∃ d', loadAndAnnotate exToolEnv exManyArgs .header exToolCfg exToolRoot = .ok d' ∧
    d'.nonSpaceTokens.map (fun i => tagValue (d'.getTag i)) =
      [none, none, none, some c!"author", some c!"author", some c!"author"] :=
  exists_of_okAnd (by decide +kernel)

/-- Values of a list which are far from the others are left out, although they occur literally: here the first one
of the list is not within the range which is found. -/
theorem C133_far_left_out :
    OccursText exMatchEnv {} c!"abc" c!"abc, some more text in between, author" ∧
    OccursText exMatchEnv {} c!"author" c!"abc, some more text in between, author" ∧
    matchingRanges exMatchEnv {} c!"abc, some more text in between, author" ⟨c!"author", .many [c!"abc", c!"author"], []⟩ =
      .ok [(32, 38)] :=
  ⟨⟨by decide, .inl ⟨by decide +kernel, by decide +kernel, [], c!", some more text in between, author", by decide +kernel,
      .inl rfl, .inr ⟨',', c!" some more text in between, author", rfl, by decide +kernel⟩⟩, fun h => absurd h (by decide +kernel)⟩,
    ⟨by decide, .inr ⟨by decide +kernel, by decide +kernel, by decide +kernel, by decide +kernel⟩,
      fun _ => onlyLiteral_short _ _ _ (by decide +kernel) (by decide +kernel)⟩, by decide +kernel⟩

end Verif
