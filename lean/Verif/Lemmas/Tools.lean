/-
Lemmas about the tools: annotators change neither lines nor texts.
-/
import Verif.Model.Tools
import Verif.Lemmas.CoreMatching
import Verif.Lemmas.PostAnnotators
import Verif.Lemmas.SimpleMatching
import Verif.Lemmas.Segmentation
import Verif.Props.SimpleMatching
import Verif.Props.Checks
import Verif.Props.PostAnnotators

namespace Verif

/-- The state of a loop contains a document. -/
theorem keeps_foldl {σ β : Type} (doc : σ → Doc) (f : σ → β → σ) (hf : ∀ s x, SameBut (doc s) (doc (f s x))) (l : List β) :
    ∀ s, SameBut (doc s) (doc (l.foldl f s)) := by
  induction l with
  | nil => exact fun s => .refl _
  | cons x l ih => exact fun s => (hf s x).trans (ih _)

theorem keeps_ite {c : Prop} [Decidable c] {d a b : Doc} (ha : SameBut d a) (hb : SameBut d b) :
    SameBut d (if c then a else b) := by
  split
  · exact ha
  · exact hb

/-! ### Segmentation -/

theorem keeps_set (st : SegState) (l : SegLine) (t : Option Str) : SameBut st.doc (st.set l t).doc :=
  sameBut_setLineTokensTag _ _ _

theorem keeps_clear (st : SegState) (l : SegLine) : SameBut st.doc (st.clear l).doc :=
  sameBut_clearLineTokens _ _

theorem keeps_segInitStep (cfg : SegConfig) (st : SegState) (l : SegLine) : SameBut st.doc (segInitStep cfg st l).doc := by
  unfold segInitStep
  split
  · exact .refl _
  · simp only [SegState.put]
    split
    · split
      · exact keeps_set _ _ _
      · exact .refl _
    · split
      · exact keeps_set _ _ _
      · split
        · exact keeps_clear _ _
        · exact .refl _

theorem keeps_clearFront (m : Int) (ls : List SegLine) (st : SegState) : SameBut st.doc (clearFront m ls st).doc := by
  unfold clearFront
  split
  · exact .refl _
  · refine keeps_foldl (fun f : FrontState => f.st.doc) _ (fun f l => ?_) ls ⟨st, none, 0⟩
    unfold clearFrontStep
    simp only
    split <;> split
    · exact keeps_clear _ _
    · exact .refl _
    · exact keeps_clear _ _
    · exact .refl _

theorem keeps_applyPreservedPages (ls : List SegLine) (st : SegState) : SameBut st.doc (applyPreservedPages ls st).doc := by
  refine keeps_foldl SegState.doc _ (fun s l => ?_) ls st
  split
  · exact .refl _
  · split
    · exact keeps_set _ _ _
    · exact .refl _

theorem keeps_findMissingPages (env : SegEnv) (ls : List SegLine) (st : SegState) :
    SameBut st.doc (findMissingPages env ls st).doc := by
  unfold findMissingPages
  simp only
  refine keeps_foldl (fun p : PageState => p.st.doc) _ (fun p e => ?_) _ ⟨st, 0, 1⟩
  unfold pageOuterStep
  simp only
  refine keeps_foldl (fun p : PageState => p.st.doc) _ (fun p c => ?_) _ p
  unfold pageInnerStep
  split
  · exact .refl _
  · split
    · exact .refl _
    · split
      · exact .refl _
      · split
        · exact .refl _
        · exact keeps_set _ _ _

theorem keeps_findPageHeaders (env : SegEnv) (m : Int) (ls : List SegLine) (st : SegState) :
    SameBut st.doc (findPageHeaders env m ls st).doc := by
  unfold findPageHeaders
  refine keeps_foldl (fun h : HeaderState => h.st.doc) _ (fun h p => ?_) _ ⟨st, none⟩
  unfold headerStep
  split
  · exact .refl _
  · split
    · exact .refl _
    · refine keeps_foldl SegState.doc _ (fun s l => ?_) ls h.st
      split
      · exact keeps_set _ _ _
      · exact .refl _

theorem keeps_setAllLines (st : SegState) (ls : List SegLine) (t : Option Str) : SameBut st.doc (setAllLines st ls t).doc :=
  keeps_foldl SegState.doc _ (fun s l => keeps_set s l t) ls st

theorem keeps_mergeStep (preserve : Bool) (enabled : List Str) (m : MergeState) (l : SegLine) :
    SameBut m.st.doc (mergeStep preserve enabled m l).st.doc := by
  unfold mergeStep
  simp only
  have h1 : ∀ c p, (if truthy (m.st.tag l.index) = true then (⟨m.st, c, p⟩ : MergeState) else m).st = m.st := by
    intro c p; split <;> rfl
  split
  · exact .refl _
  · split
    · simp only [h1]
      exact keeps_setAllLines _ _ _
    · split
      · exact .refl _
      · split
        · exact .refl _
        · split
          · exact .refl _
          · exact .refl _

theorem keeps_mergeLines (preserve : Bool) (enabled remaining : List Str) (ls : List SegLine) (st : SegState) :
    SameBut st.doc (mergeLines preserve enabled remaining ls st).doc := by
  unfold mergeLines
  simp only
  have h := keeps_foldl (fun m : MergeState => m.st.doc) _ (keeps_mergeStep preserve enabled) ls ⟨st, [], some segFront⟩
  split
  · exact h.trans (keeps_setAllLines _ _ _)
  · exact h

theorem keeps_tagRemaining (ls : List SegLine) (st : SegState) : SameBut st.doc (tagRemaining ls st).doc := by
  refine keeps_foldl SegState.doc _ (fun s l => ?_) ls st
  split
  · exact .refl _
  · exact keeps_set _ _ _

theorem keeps_segment (env : SegEnv) (cfg : SegConfig) (preserve : Bool) (d : Doc) : SameBut d (segment env cfg preserve d) := by
  unfold segment
  simp only
  have h1 := keeps_foldl SegState.doc _ (keeps_segInitStep cfg) (segLines d) ⟨d, fun _ => none⟩
  refine h1.trans ((keeps_clearFront cfg.frontMaxStartLineIndex (segLines d) _).trans ?_)
  generalize clearFront cfg.frontMaxStartLineIndex (segLines d) _ = st2
  have h3 : SameBut st2.doc (if preserve = true then applyPreservedPages (segLines d) st2 else st2).doc := by
    split
    · exact keeps_applyPreservedPages _ _
    · exact .refl _
  refine h3.trans ?_
  generalize (if preserve = true then applyPreservedPages (segLines d) st2 else st2) = st3
  refine (keeps_findMissingPages env (segLines d) st3).trans ((keeps_findPageHeaders env cfg.pageHeaderMaxFirstLineIndex (segLines d) _).trans
    ((keeps_mergeLines preserve (segMergedTags cfg) [segAnnex] (segLines d) _).trans ?_))
  split
  · exact .refl _
  · exact keeps_tagRemaining _ _

/-! ### Post processing -/

theorem keeps_expandPrevious (enabled : List Str) (d : Doc) : SameBut d (expandPrevious enabled d) := by
  refine keeps_foldl PrevState.doc _ (fun st i => ?_) _ ⟨d, []⟩
  unfold expandPreviousStep
  simp only
  split
  · exact .refl _
  · split
    · exact .refl _
    · split
      · exact .refl _
      · exact (sameBut_tagPending _ _ _).trans (sameBut_setTagOnly _ _ _ _ _)

theorem keeps_expandFollowing (enabled : List Str) (d : Doc) : SameBut d (expandFollowing enabled d) := by
  refine keeps_foldl Prod.snd _ (fun st i => ?_) _ (none, d)
  unfold expandFollowingStep
  simp only
  split
  · exact .refl _
  · split
    · exact .refl _
    · exact sameBut_setTagOnly _ _ _ _ _

theorem keeps_mergeGroupTags (group : Str → Option Str) (level : Option Nat) (d : Doc) : SameBut d (mergeGroupTags group level d) := by
  refine keeps_foldl Prod.snd _ (fun st i => ?_) _ (none, d)
  unfold mergeGroupStep
  split
  · exact .refl _
  · simp only
    split
    · exact .refl _
    · split
      · exact .refl _
      · exact sameBut_setTagOnly _ _ _ _ _

theorem keeps_replaceTags (repl : Dict (Option Str)) (d : Doc) : SameBut d (replaceTags repl d) := by
  refine sameBut_foldl _ (fun d i => ?_) _ d
  unfold replaceTagsStep
  simp only
  split
  · exact .refl _
  · split
    · exact .refl _
    · exact sameBut_setTag _ _ _ _ _

theorem keeps_setRefTags (d : Doc) (l : List (Nat × Option Str)) : SameBut d (setRefTags d l) := by
  refine sameBut_foldl _ (fun d i => ?_) _ d
  split
  · exact sameBut_setTag _ _ _ _ _
  · exact .refl _

/-- An annotator that changes neither lines nor texts, unless it fails. -/
def Keeps (f : Doc → Except Err Doc) : Prop := ∀ d d', f d = .ok d' → SameBut d d'

theorem keeps_total {f : Doc → Doc} (h : ∀ d, SameBut d (f d)) : Keeps (total f) := by
  intro d d' e
  obtain rfl := Except.ok.inj e
  exact h d

theorem keeps_foldlM {β : Type} (f : Doc → β → Except Err Doc) (hf : ∀ x, Keeps (fun d => f d x)) (l : List β) :
    Keeps (fun d => l.foldlM f d) := by
  induction l with
  | nil => intro d d' h; obtain rfl := Except.ok.inj h; exact .refl _
  | cons x l ih =>
    intro d d' h
    simp only [List.foldlM_cons] at h
    cases hx : f d x with
    | error e => rw [hx] at h; cases h
    | ok d1 =>
      rw [hx] at h
      exact (hf x d d1 hx).trans (ih d1 d' h)

theorem keeps_referenceAnnotate (env : RefEnv) (cfg : RefConfig) : Keeps (referenceAnnotate env cfg) := by
  intro d d' h
  refine keeps_foldlM _ (fun e => ?_) (refEntities d d.nonSpaceTokens) d d' h
  intro d d' h
  dsimp only at h
  unfold refEntity at h
  have h1 : SameBut d (addNameSuffix env cfg (mapEtal cfg d e.2) e.2) := (keeps_setRefTags _ _).trans (keeps_setRefTags _ _)
  generalize addNameSuffix env cfg (mapEtal cfg d e.2) e.2 = d1 at h h1
  unfold addIdnoPrefix at h
  generalize prefixExtended env _ _ _ = p at h
  cases p with
  | error e => cases h
  | ok tags =>
    obtain rfl := Except.ok.inj h
    exact h1.trans ((keeps_setRefTags _ _).trans (keeps_setRefTags _ _))

/-! ### Matching -/

theorem keeps_subTagLoop (cfg : CoreCfg) (name : Str) (l : List Nat) : ∀ (d : Doc) (b : Bool), SameBut d (subTagLoop cfg name d b l) := by
  induction l with
  | nil => exact fun d b => .refl _
  | cons i l ih => exact fun d b => (sameBut_setTag _ _ _ _ _).trans (ih _ _)

theorem keeps_applySubs (env : CoreEnv) (cfg : CoreCfg) (seq : CoreSeq) (ss : List CoreSub) :
    ∀ (d : Doc) (m : List Nat) (d' : Doc), applySubs env cfg seq d m ss = .ok d' → SameBut d d' := by
  induction ss with
  | nil => intro d m d' h; obtain rfl := Except.ok.inj h; exact .refl _
  | cons s ss ih =>
    intro d m d' h
    unfold applySubs at h
    split at h
    · cases h
    · exact (keeps_subTagLoop _ _ _ _ _).trans (ih _ _ _ h)

theorem keeps_tagLoop (cfg : CoreCfg) (name : Str) (l : List Nat) :
    ∀ st : Doc × List Nat, SameBut st.1 (tagLoop cfg name st l).1 := by
  induction l with
  | nil => exact fun st => by unfold tagLoop; exact .refl _
  | cons i l ih =>
    rintro ⟨d, all⟩
    unfold tagLoop
    split
    · exact ih (d, all)
    · exact (sameBut_setTag d i _ none none).trans (ih (_, _))

theorem keeps_applyMatches (env : CoreEnv) (cfg : CoreCfg) (t : CoreTarget) (ms : List SeqMatch) :
    ∀ (st : Doc × List Nat) (d' : Doc), applyMatches env cfg t st ms = .ok d' → SameBut st.1 d' := by
  induction ms with
  | nil => intro st d' h; unfold applyMatches at h; obtain rfl := Except.ok.inj h; exact .refl _
  | cons m ms ih =>
    rintro ⟨d, all⟩ d' h
    unfold applyMatches at h
    simp only at h
    have h1 := keeps_tagLoop cfg t.name (coreTokensBetween env (coreNormalise env) d m.range2 m.seq) (d, all)
    split at h
    · exact h1.trans (ih _ _ h)
    · split at h
      · cases h
      · next d1 hd1 => exact h1.trans ((keeps_applySubs _ _ _ _ _ _ _ hd1).trans (ih (d1, _) _ h))

theorem keeps_applyConditional (env : CoreEnv) (cfg : CoreCfg) (c : Conditional) (ms : List SeqMatch) :
    Keeps (applyConditional env cfg c ms) := by
  intro d d' h
  unfold applyConditional at h
  split at h
  · obtain rfl := Except.ok.inj h; exact .refl _
  · split at h
    · exact keeps_applyMatches _ _ _ _ (_, _) _ h
    · obtain rfl := Except.ok.inj h; exact .refl _

theorem keeps_annotateItems (env : CoreEnv) (cfg : CoreCfg) (t : CoreTarget) (n : Nat) :
    ∀ (d : Doc) (c : Conditional) (m : List Nat) (ch : Choices) (r : Doc × Conditional × List Nat),
      annotateItems env cfg t n d c m ch = .ok (some r) → SameBut d r.1 := by
  induction n with
  | zero => intro d c m ch r h; unfold annotateItems at h; cases h
  | succ n ih =>
    intro d c m ch r h
    unfold annotateItems at h
    split at h
    · cases h
    · simp only at h
      split at h
      · cases h; exact .refl _
      · split at h
        · cases h
        · next d1 hd1 =>
          have h1 := keeps_applyConditional _ _ _ _ _ _ hd1
          split at h
          · cases h
          · next d2 hd2 =>
            have h2 : SameBut d1 d2 := by
              split at hd2
              · obtain rfl := Except.ok.inj hd2; exact .refl _
              · exact keeps_applyMatches _ _ _ _ (_, _) _ hd2
            split at h
            · exact h1.trans (h2.trans (ih _ _ _ _ _ h))
            · cases h; exact h1.trans h2

theorem keeps_annotateTargets (env : CoreEnv) (cfg : CoreCfg) (fuel : Nat) (pending : List CoreSeq) (ts : List CoreTarget) :
    ∀ (st st' : CoreState), annotateTargets env cfg fuel pending st ts = .ok (some st') → SameBut st.doc st'.doc := by
  induction ts with
  | nil => intro st st' h; unfold annotateTargets at h; cases h; exact .refl _
  | cons t ts ih =>
    intro st st' h
    unfold annotateTargets at h
    simp only at h
    split at h
    · cases h
    · cases h
    · next d c m hd => exact (keeps_annotateItems _ _ _ _ _ _ _ _ _ hd).trans (ih _ _ h)

theorem keeps_coreAnnotate (env : CoreEnv) (cfg : CoreCfg) (ts : List CoreTarget) : Keeps (coreAnnotate env cfg ts) := by
  intro d d' h
  unfold coreAnnotate at h
  simp only at h
  split at h
  · cases h
  · cases h
  · next st hst =>
    obtain rfl := Except.ok.inj h
    exact keeps_annotateTargets _ _ _ _ _ _ _ hst

theorem keeps_simpleAnnotate (env : MatchEnv) (cfg : MatchCfg) (ts : List Target) : Keeps (simpleAnnotate env cfg ts) :=
  fun _ _ h => (C19_text_and_sub_tags _ _ _ _ _ h).1

theorem keeps_subTagOnly (p : Bool) {inner : Doc → Except Err Doc} (hi : Keeps inner) : Keeps (subTagOnlyAnnotate p inner) := by
  intro d d' h
  unfold subTagOnlyAnnotate at h
  simp only at h
  split at h
  · cases h
  · next d2 hd2 =>
    obtain rfl := Except.ok.inj h
    refine SameBut.trans ?_ ((hi _ _ hd2).trans ?_)
    · refine sameBut_foldl _ (fun d i => ?_) _ _
      split
      · exact sameBut_setTagOnly _ _ _ _ _
      · exact (sameBut_setTagOnly _ _ _ _ _).trans (sameBut_setAttr _ _ _ _)
    · exact sameBut_foldl _ (fun d i => sameBut_setTagOnly _ _ _ _ _) _ _

theorem keeps_lineNumbers (env : ToolEnv) (a : LineNumberArgs) : Keeps (lineNumberAnnotator env a) := by
  intro d d' h
  unfold lineNumberAnnotator at h
  split at h
  · obtain ⟨_, _, h1, _⟩ := Props.C26_annotate _ _ _ h
    exact h1
  · simp only at h
    split at h
    · obtain rfl := Except.ok.inj h; exact .refl _
    · split at h <;> cases h

theorem keeps_annotateAll (as : List (Doc → Except Err Doc)) (h : ∀ a ∈ as, Keeps a) : Keeps (annotateAll as) := by
  induction as with
  | nil => intro d d' e; obtain rfl := Except.ok.inj e; exact .refl _
  | cons a as ih =>
    intro d d' e
    unfold annotateAll at e
    split at e
    · cases e
    · next d1 hd1 => exact (h a List.mem_cons_self d d1 hd1).trans (ih (fun x hx => h x (List.mem_cons_of_mem _ hx)) d1 d' e)

theorem keeps_default (env : ToolEnv) (a : ToolArgs) (s : Bool) : ∀ f ∈ defaultAnnotators env a s, Keeps f := by
  intro f hf
  unfold defaultAnnotators at hf
  rcases List.mem_append.1 hf with h | h
  · split at h
    · rw [List.mem_singleton] at h; subst h; exact keeps_lineNumbers _ _
    · cases h
  · split at h
    · rw [List.mem_singleton] at h
      subst h
      split
      · exact keeps_simpleAnnotate _ _ _
      · exact keeps_coreAnnotate _ _ _
    · cases h

theorem keeps_matchOrSubTags (env : ToolEnv) (cfg : MatchCfg) (ts : List Target) (s : Bool) : Keeps (matchOrSubTags env cfg ts s) := by
  unfold matchOrSubTags
  split
  · exact keeps_simpleAnnotate _ _ _
  · exact keeps_subTagOnly _ (keeps_simpleAnnotate _ _ _)

end Verif
