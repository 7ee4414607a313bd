/-
C151: the tokens of the heading of an abstract and of the label of an affiliation are labelled.
-/
import Verif.Spec.PrefixPlace
import Verif.Props.PrefixPatterns
import Verif.Props.LiteralPlace

namespace Verif
open Spec

theorem Pattern.search_le {cc : CharClass} {p : Pattern} {s : Str} {k : Nat} (h : (p.search cc s).map (·.1) = some k) : k ≤ s.length := by
  obtain ⟨⟨a, b⟩, he, rfl⟩ := Option.map_eq_some_iff.1 h
  obtain ⟨u, y, x, z, v, e, e1, _⟩ := Pattern.search_fits he
  rw [e]
  simp only [List.length_append]
  omega

/-- The regular expressions meet the assumption about them. -/
theorem exactEnv_prefix (special : Char → Bool) {env : MatchEnv} {cfg : MatchCfg} (he : ExactEnv env cfg) :
    ExactEnv (withPrefixPatterns special env) cfg := by
  refine ⟨⟨he.good.lsm, he.good.diff⟩, he.lsm, he.diff, he.rnd, ?_, he.thresholdPos, he.thresholdLe⟩
  intro p s k h
  have h : prefixSearch env.cc p s = some k := Except.ok.inj h
  unfold prefixSearch at h
  split at h
  · exact Pattern.search_le h
  · split at h
    · exact Pattern.search_le h
    · cases h

theorem prefix_in_turn (Before : Str → Str → Prop) (env : MatchEnv) (cfg : MatchCfg) (he : ExactEnv env cfg) (hm : cfg.mainTags = true)
    (before after : List Target) (t : Target) (v : Str) (d d' : Doc)
    (hnd : d.nonSpaceTokens.Nodup) (hp : ∀ i, ProperTag (d.getTag i))
    (hn : ∀ t' ∈ before ++ t :: after, t'.name ≠ [] ∧ tagValue (some t'.name) = some t'.name)
    (h : simpleAnnotate env cfg (before ++ t :: after) d = .ok d')
    (st : MatchState) (hst : processTargets env cfg (pendingOfDoc d) ⟨d, pendingOfDoc d, none, []⟩ before = .ok st)
    (seqs : List (List Nat))
    (hs : seqs = pendingSequences st.doc st.current (some cfg.lookahead) ∨
      (matchingRanges env cfg (seqsText (matchSeqEnv env) st.doc (pendingSequences st.doc st.current (some cfg.lookahead))) t = .ok [] ∧
        st.block ≠ pyOr (cfg.tagConfig t.name).blockName (some c!"default") ∧
        seqs = pendingSequences st.doc (pendingOfDoc d) none))
    (hne : ∀ s ∈ seqs, s ≠ [])
    (ho : OccursFor env cfg t v (seqsText (matchSeqEnv env) st.doc seqs))
    (hb : ∀ (text : Str) (r : Nat × Nat) u₀, Before (text.take r.1) u₀ →
      ∃ u, Before (text.take r.1) u ∧ (∀ u', Before (text.take r.1) u' → u.length ≤ u'.length) ∧
        applyPrefixRegex env cfg text r t = .ok (u.length, r.2)) :
    LabelledWith Before env st.doc d' seqs (normaliseStr env.lower v) t.name := by
  obtain ⟨r, hr, hr1, hr2, hr3⟩ := C126_range env cfg he t v _ ho
  obtain ⟨r', hpre, ranges, hlo, hlab⟩ := in_turn_prefix env cfg hm before after t d d' hnd hp hn h st hst seqs hs hne r hr
  refine ⟨ranges, r, hlo, hr1, hr2, hr3, fun u₀ hu₀ => ?_⟩
  obtain ⟨u, h1, h2, h3⟩ := hb _ r u₀ hu₀
  rw [h3] at hpre
  obtain rfl := Except.ok.inj hpre
  exact ⟨u, h1, h2, hlab⟩

theorem heading_extended (special : Char → Bool) (env : MatchEnv) (hn : env.cc.isSpace '\n' = true) (cfg : MatchCfg) (t : Target)
    (hcfg : (cfg.tagConfig t.name).matchPrefixRegex = some c!"(abstract|summary)\\s*$") (text : Str) (r : Nat × Nat) (u₀ : Str)
    (h : ∃ h w, HeadingAtEnd env.cc (text.take r.1) u₀ h w) :
    ∃ u, (∃ h w, HeadingAtEnd env.cc (text.take r.1) u h w) ∧
      (∀ u', (∃ h w, HeadingAtEnd env.cc (text.take r.1) u' h w) → u.length ≤ u'.length) ∧
      applyPrefixRegex (withPrefixPatterns special env) cfg text r t = .ok (u.length, r.2) := by
  obtain ⟨h₀, w₀, hh⟩ := h
  have hr : r.1 ≠ 0 := by
    intro h0
    have := hh.text
    rw [h0, List.take_zero] at this
    have h2 := congrArg List.length this
    rcases hh.heading with rfl | rfl <;> simp at h2
  obtain ⟨u, h1, w1, h2, h3, h4⟩ := (C151_heading special env hn cfg text r t hcfg hr).2 u₀ h₀ w₀ hh
  exact ⟨u, ⟨h1, w1, h2⟩, fun u' ⟨h', w', hu'⟩ => h3 u' h' w' hu', h4⟩

theorem label_extended (special : Char → Bool) (hesc : special '\\' = true) (env : MatchEnv) (hn : env.cc.isSpace '\n' = true) (cfg : MatchCfg) (t : Target)
    (hcfg : (cfg.tagConfig t.name).matchPrefixRegex = some c!"({author_aff-label})\\s*[\\.-]*\\s*$")
    (sb sa : List (Str × TargetValue)) (label : Str) (hsubs : t.subs = sb ++ (c!"author_aff-label", .one label) :: sa)
    (hlast : ∀ l, (c!"author_aff-label", .one l) ∉ sa) (text : Str) (r : Nat × Nat) (u₀ : Str)
    (h : LabelBefore env.cc label (text.take r.1) u₀) :
    ∃ u, LabelBefore env.cc label (text.take r.1) u ∧ (∀ u', LabelBefore env.cc label (text.take r.1) u' → u.length ≤ u'.length) ∧
      applyPrefixRegex (withPrefixPatterns special env) cfg text r t = .ok (u.length, r.2) := by
  by_cases hr : r.1 = 0
  · have hu : u₀ = [] := by
      obtain ⟨w, p, w', e, _⟩ := h.text
      rw [hr, List.take_zero] at e
      have h2 := congrArg List.length e
      simp only [List.length_append, List.length_nil] at h2
      exact List.length_eq_zero_iff.1 (by omega)
    subst hu
    refine ⟨[], h, fun u' _ => Nat.zero_le _, ?_⟩
    rw [(C64_prefix _ cfg text r t).1 (.inl hr)]
    obtain ⟨a, b⟩ := r
    obtain rfl : a = 0 := hr
    rfl
  · exact (C151_label special hesc env hn cfg text r t hcfg hr sb sa label hsubs hlast).2 u₀ h

/-- **C151.** The tokens of the heading of an abstract are labelled with it, when its turn comes: `st` is the state after the target
annotations before it (as in C126). -/
theorem C151_heading_labelled (special : Char → Bool) (env : MatchEnv) (hsp : env.cc.isSpace '\n' = true) (cfg : MatchCfg)
    (he : ExactEnv env cfg) (hm : cfg.mainTags = true)
    (before after : List Target) (t : Target) (v : Str) (d d' : Doc)
    (hcfg : (cfg.tagConfig t.name).matchPrefixRegex = some c!"(abstract|summary)\\s*$")
    (hnd : d.nonSpaceTokens.Nodup) (hp : ∀ i, ProperTag (d.getTag i))
    (hn : ∀ t' ∈ before ++ t :: after, t'.name ≠ [] ∧ tagValue (some t'.name) = some t'.name)
    (h : simpleAnnotate (withPrefixPatterns special env) cfg (before ++ t :: after) d = .ok d')
    (st : MatchState) (hst : processTargets (withPrefixPatterns special env) cfg (pendingOfDoc d) ⟨d, pendingOfDoc d, none, []⟩ before = .ok st)
    (ho : OccursFor env cfg t v (seqsText (matchSeqEnv env) st.doc (pendingSequences st.doc st.current (some cfg.lookahead))))
    (hne : ∀ s ∈ pendingSequences st.doc st.current (some cfg.lookahead), s ≠ []) :
    LabelledWith (fun s u => ∃ h w, HeadingAtEnd env.cc s u h w) env st.doc d'
      (pendingSequences st.doc st.current (some cfg.lookahead)) (normaliseStr env.lower v) t.name :=
  prefix_in_turn (fun s u => ∃ h w, HeadingAtEnd env.cc s u h w) (withPrefixPatterns special env) cfg (exactEnv_prefix special he) hm
    before after t v d d' hnd hp hn h st hst _ (.inl rfl) hne ho (heading_extended special env hsp cfg t hcfg)

/-- **C151.** The same for the label of an affiliation. -/
theorem C151_label_labelled (special : Char → Bool) (hesc : special '\\' = true) (env : MatchEnv) (hsp : env.cc.isSpace '\n' = true) (cfg : MatchCfg)
    (he : ExactEnv env cfg) (hm : cfg.mainTags = true)
    (before after : List Target) (t : Target) (v : Str) (d d' : Doc)
    (hcfg : (cfg.tagConfig t.name).matchPrefixRegex = some c!"({author_aff-label})\\s*[\\.-]*\\s*$")
    (sb sa : List (Str × TargetValue)) (label : Str) (hsubs : t.subs = sb ++ (c!"author_aff-label", .one label) :: sa)
    (hlast : ∀ l, (c!"author_aff-label", .one l) ∉ sa)
    (hnd : d.nonSpaceTokens.Nodup) (hp : ∀ i, ProperTag (d.getTag i))
    (hn : ∀ t' ∈ before ++ t :: after, t'.name ≠ [] ∧ tagValue (some t'.name) = some t'.name)
    (h : simpleAnnotate (withPrefixPatterns special env) cfg (before ++ t :: after) d = .ok d')
    (st : MatchState) (hst : processTargets (withPrefixPatterns special env) cfg (pendingOfDoc d) ⟨d, pendingOfDoc d, none, []⟩ before = .ok st)
    (ho : OccursFor env cfg t v (seqsText (matchSeqEnv env) st.doc (pendingSequences st.doc st.current (some cfg.lookahead))))
    (hne : ∀ s ∈ pendingSequences st.doc st.current (some cfg.lookahead), s ≠ []) :
    LabelledWith (LabelBefore env.cc label) env st.doc d'
      (pendingSequences st.doc st.current (some cfg.lookahead)) (normaliseStr env.lower v) t.name :=
  prefix_in_turn (LabelBefore env.cc label) (withPrefixPatterns special env) cfg (exactEnv_prefix special he) hm
    before after t v d d' hnd hp hn h st hst _ (.inl rfl) hne ho (label_extended special hesc env hsp cfg t hcfg sb sa label hsubs hlast)

theorem run_prefix_label (Before : Str → Str → Prop) (env : ToolEnv) (a : ToolArgs) (t : Tool) (d d' : Doc)
    (he : ExactEnv env.simple (simpleCfg a false false true)) (ht : labelsByMatching a t)
    (x : Target) (after : List Target) (v : Str) (hx : a.targets = x :: after)
    (hn : ∀ y ∈ a.targets, y.name ≠ [] ∧ tagValue (some y.name) = some y.name)
    (hrep : (∃ p q r, t = .fulltext p q r) → x.name ≠ c!"note_other" ∧ x.name ≠ c!"note[@type=\"other\"]")
    (hprop : ∀ j, ProperTag (d.getTag j)) (hnd : d.nonSpaceTokens.Nodup)
    (h1 : annotateAll (t.annotators env a) d = .ok d')
    (ho : OccursFor env.simple (simpleCfg a false false true) x v (seqsText (matchSeqEnv env.simple) d (firstLines d a.lookahead)))
    (hb : ∀ (cfg : MatchCfg) (text : Str) (r : Nat × Nat) u₀, cfg.tagConfigMap = a.tagConfigMap → Before (text.take r.1) u₀ →
      ∃ u, Before (text.take r.1) u ∧ (∀ u', Before (text.take r.1) u' → u.length ≤ u'.length) ∧
        applyPrefixRegex env.simple cfg text r x = .ok (u.length, r.2)) :
    LabelledWith Before env.simple d d' (firstLines d a.lookahead) (normaliseStr env.simple.lower v) x.name := by
  have hxn := hn x (by rw [hx]; exact List.mem_cons_self)
  refine run_keeps_label env a t d d' ht x.name hxn.1 hrep h1
    (fun z => LabelledWith Before env.simple d z (firstLines d a.lookahead) (normaliseStr env.simple.lower v) x.name) ?_ ?_
  · intro us ps ex z hz
    rw [hx] at hz
    have main := prefix_in_turn Before env.simple (simpleCfg a us ps ex)
      ⟨he.good, he.lsm, he.diff, he.rnd, he.re, he.thresholdPos, he.thresholdLe⟩
      rfl [] after x v d z hnd hprop (fun y hy => hn y (by rw [hx]; exact hy)) hz _ rfl
    simp only [] at main
    rw [pendingSequences_first] at main
    exact main _ (.inl rfl) (firstLines_ne d _) ho (fun text r u₀ => hb _ text r u₀ rfl)
  · rintro z z' ⟨ranges, r, b1, b2, b3, b4, b5⟩ hz
    refine ⟨ranges, r, b1, b2, b3, b4, fun u₀ hu₀ => ?_⟩
    obtain ⟨u, c1, c2, c3⟩ := b5 u₀ hu₀
    refine ⟨u, c1, c2, ?_⟩
    intro y hy hov
    have := c3 y hy hov
    rw [← stripTagPrefix_eq_tagValue] at this ⊢
    exact hz y.1 this

/-- **C151.** The tools label the heading of an abstract in the file, if the abstract is the first target annotation: each token of the
heading has its label in the document which is written. -/
theorem C151_tool_heading (special : Char → Bool) (menv : MatchEnv) (env : ToolEnv) (henv : env.simple = withPrefixPatterns special menv)
    (hsp : menv.cc.isSpace '\n' = true) (a : ToolArgs) (t : Tool) (cfg : DocCfg) (passes : Doc → Except Err Bool)
    (root root' : Elem) (target path : Str) (failed : Option Str)
    (he : ExactEnv menv (simpleCfg a false false true)) (ht : labelsByMatching a t)
    (x : Target) (after : List Target) (v : Str) (hx : a.targets = x :: after)
    (hcfg : ((simpleCfg a false false true).tagConfig x.name).matchPrefixRegex = some c!"(abstract|summary)\\s*$")
    (hn : ∀ y ∈ a.targets, y.name ≠ [] ∧ tagValue (some y.name) = some y.name)
    (hrep : (∃ p q r, t = .fulltext p q r) → x.name ≠ c!"note_other" ∧ x.name ≠ c!"note[@type=\"other\"]")
    (h : t.run env a cfg passes root target failed = .ok (some (path, root'))) :
    ∃ d0 d', loadDoc { cfg with preserveTags := true } root = .ok d0 ∧ docRoot cfg root d' = .ok root' ∧
      let d := beforeAnnotator (t.annotateCfg a) d0
      ((∀ j, ProperTag (d0.getPreservedTag j)) →
        OccursFor menv (simpleCfg a false false true) x v (seqsText (matchSeqEnv menv) d (firstLines d a.lookahead)) →
        LabelledWith (fun s u => ∃ h w, HeadingAtEnd menv.cc s u h w) menv d d' (firstLines d a.lookahead) (normaliseStr menv.lower v) x.name) := by
  obtain ⟨d0, d', h0, h1, h2, _⟩ := run_steps h
  refine ⟨d0, d', h0, h2, ?_⟩
  intro d hp ho
  have main := run_prefix_label (fun s u => ∃ h w, HeadingAtEnd menv.cc s u h w) env a t d d' (by rw [henv]; exact exactEnv_prefix special he)
    ht x after v hx hn hrep (before_proper _ h0 hp) (nodup_loadDoc h0 (Props.C14_aux_sameBut _ _)).2 h1 (by rw [henv]; exact ho) (by
      intro cfg text r u₀ hc hu
      rw [henv]
      refine heading_extended special menv hsp cfg x ?_ text r u₀ hu
      unfold MatchCfg.tagConfig at hcfg ⊢
      rw [hc]
      exact hcfg)
  rw [henv] at main
  exact main

/-! ### Examples -/

/-- A file with a heading before the abstract. -/
def exAbstractRoot : Elem :=
  .mk c!"tei" [] none
    [.mk c!"text" [] (some c!"On titles")
      [.mk c!"lb" [] none [] (some c!"Abstract"), .mk c!"lb" [] none [] (some c!"We show titles. Names")] none] none

def exAsciiEnv : MatchEnv := { exMatchEnv with lower := asciiLower }

def exAbstractEnv : ToolEnv := { exToolEnv with simple := withPrefixPatterns exSpecial exAsciiEnv }

def exAbstractArgs : ToolArgs :=
  { targets := [⟨c!"abstract", .one c!"We show titles.", []⟩]
    tagConfigMap := [(c!"abstract", { matchPrefixRegex := some c!"(abstract|summary)\\s*$" })] }

/-- The hypotheses are met: the text of the lines of the file, and the abstract in it with the heading in front. -/
example : (∃ d0, loadDoc { exToolCfg with preserveTags := true } exAbstractRoot = .ok d0 ∧
      let d := beforeAnnotator (Tool.header.annotateCfg exAbstractArgs) d0
      seqsText (matchSeqEnv exAsciiEnv) d (firstLines d 200) = c!"on titles\nabstract\nwe show titles. names") ∧
    OccursFor exAsciiEnv (simpleCfg exAbstractArgs false false true) ⟨c!"abstract", .one c!"We show titles.", []⟩
      c!"We show titles." c!"on titles\nabstract\nwe show titles. names" ∧
    HeadingAtEnd exAsciiEnv.cc (c!"on titles\nabstract\nwe show titles. names".take 19) c!"on titles\n" c!"abstract" c!"\n" ∧
    exAsciiEnv.cc.isSpace '\n' = true ∧ ExactEnv exAsciiEnv (simpleCfg exAbstractArgs false false true) ∧
    labelsByMatching exAbstractArgs .header ∧
    ((simpleCfg exAbstractArgs false false true).tagConfig c!"abstract").matchPrefixRegex = some c!"(abstract|summary)\\s*$" := by
  refine ⟨exists_of_okAnd (by decide +kernel), ⟨rfl, by decide, .inl (by decide), .inr ⟨by decide +kernel, by decide +kernel, by decide +kernel, by decide +kernel⟩, ?_⟩,
    ⟨by decide +kernel, .inl rfl, by decide +kernel⟩, by decide +kernel, ?_, ⟨rfl, rfl, rfl⟩, rfl⟩
  · intro _
    exact onlyLiteral_short _ _ _ (by decide +kernel) (by decide +kernel)
  · exact ⟨⟨exFind_good, exFind_good⟩, exFind_finds, exFind_finds, fun _ _ => (by simp [exAsciiEnv, exMatchEnv]),
      fun _ _ _ h => (by simp [exAsciiEnv, exMatchEnv] at h), (by decide +kernel), (by decide +kernel)⟩

/-- The heading gets the label (and what completes the last line). -/
example : ∃ d', loadAndAnnotate exAbstractEnv exAbstractArgs .header exToolCfg exAbstractRoot = .ok d' ∧
    d'.nonSpaceTokens.map (fun i => d'.getTag i) =
      [none, none, some c!"b-abstract", some c!"i-abstract", some c!"i-abstract", some c!"i-abstract", some c!"i-abstract", some c!"i-abstract"] :=
  exists_of_okAnd (by decide +kernel)

end Verif
