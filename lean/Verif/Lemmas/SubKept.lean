/-
Lemmas about preserved sub tags while a document is annotated.
-/
import Verif.Lemmas.ToolLabels

namespace Verif

/-! ### Invariants of the matcher of values anywhere -/

/-- A property of documents which is kept by the changes the matcher makes for a target annotation. -/
structure Invariant (cfg : MatchCfg) (I : Doc → Prop) (t : Target) : Prop where
  main : cfg.mainTags = true → ∀ d is, (∀ i ∈ is, truthy (d.getTag i) = false) → I d → I (tagTokens cfg t.name d 0 is)
  sub : cfg.useSubAnnotations = true → ∀ s ∈ t.subs, ∀ d is, (∀ i ∈ is, truthy (d.getSubTag i) = false) → I d →
    I (subTagTokens cfg s.1 d 0 is)

variable {cfg : MatchCfg} {I : Doc → Prop}

theorem tagTokens_each {name : Str} (h : ∀ d i k, I d →
      I (if cfg.preserveSubAnnotations then d.setTagOnly i (addTagPrefix (some name) (indexPrefix cfg k))
        else d.setTag i (addTagPrefix (some name) (indexPrefix cfg k)))) (is : List Nat) :
    ∀ (d : Doc) (k : Nat), I d → I (tagTokens cfg name d k is) := by
  induction is with
  | nil => exact fun d k h => h
  | cons i is ih => exact fun d k hd => ih _ _ (h d i k hd)

theorem subTagTokens_each {name : Str} (h : ∀ d i k, I d → I (d.setSubTag i (addTagPrefix (some name) (indexPrefix cfg k)))) (is : List Nat) :
    ∀ (d : Doc) (k : Nat), I d → I (subTagTokens cfg name d k is) := by
  induction is with
  | nil => exact fun d k h => h
  | cons i is ih => exact fun d k hd => ih _ _ (h d i k hd)

theorem invariant_subRanges (senv : SeqEnv) {t : Target} (ht : Invariant cfg I t) (hu : cfg.useSubAnnotations = true)
    {s : Str × TargetValue} (hs : s ∈ t.subs) (tokens : List Nat) (d d' : Doc) (err : Option Err)
    (rs : List (Nat × Nat)) (h : subRanges senv cfg tokens s.1 d err rs = .ok d') (hd : I d) : I d' := by
  induction rs with
  | nil =>
    unfold subRanges at h
    cases err with
    | none => cases h; exact hd
    | some e => cases h
  | cons r rs ih =>
    unfold subRanges at h
    simp only [] at h
    split at h
    · exact ih h
    · next hnone =>
      cases h
      refine ht.sub hu s hs _ _ (fun i hi => Bool.eq_false_iff.2 (fun hc => hnone ?_)) hd
      exact List.any_eq_true.2 ⟨i, hi, hc⟩

theorem invariant_subAnnotations (env : MatchEnv) {t : Target} (ht : Invariant cfg I t) (hu : cfg.useSubAnnotations = true)
    (tokens : List Nat) (text : Str) (subs : List (Str × TargetValue)) (hs : ∀ s ∈ subs, s ∈ t.subs) :
    ∀ (d d' : Doc), subAnnotations env cfg tokens text d subs = .ok d' → I d → I d' := by
  induction subs with
  | nil => intro d d' h; cases h; exact id
  | cons s subs ih =>
    intro d d' h hd
    obtain ⟨name, v⟩ := s
    cases v with
    | many vs => cases h
    | one v =>
      unfold subAnnotations at h
      simp only [] at h
      split at h
      · cases h
      · next d1 h1 =>
        exact ih (fun s hs' => hs s (List.mem_cons_of_mem _ hs')) d1 d' h
          (invariant_subRanges _ ht hu (s := (name, .one v)) (hs _ List.mem_cons_self) _ _ _ _ _ h1 hd)

theorem invariant_applyRanges (env : MatchEnv) (senv : SeqEnv) (seqs : List (List Nat)) {target : Target}
    (ht : Invariant cfg I target) (rs : List (Nat × Nat)) : ∀ (d d' : Doc), applyRanges env senv cfg seqs target d rs = .ok d' →
      I d → I d' := by
  induction rs with
  | nil => intro d d' h; cases h; exact id
  | cons r rs ih =>
    intro d d' h hd
    unfold applyRanges at h
    split at h
    · cases h
    · next r' _ =>
      simp only [] at h
      have g1 : I (updateRange senv cfg seqs r' target.name d) := by
        unfold updateRange
        split
        · next hm =>
          refine ht.main hm _ _ (fun i hi => ?_) hd
          simpa using (List.mem_filter.1 hi).2
        · exact hd
      split at h
      · cases h
      · next d2 h2 =>
        refine ih d2 d' h ?_
        split at h2
        · next hu =>
          unfold processSub at h2
          split at h2
          · cases h2; exact g1
          · exact invariant_subAnnotations _ ht hu _ _ _ (fun _ h => h) _ _ h2 g1
        · cases h2; exact g1

theorem invariant_processTarget (env : MatchEnv) (pending : List (List Nat)) (st st' : MatchState) {target : Target}
    (ht : Invariant cfg I target) (h : processTarget env cfg pending st target = .ok st') (hd : I st.doc) : I st'.doc := by
  unfold processTarget at h
  simp only [] at h
  split at h
  · cases h
  · split at h
    · cases h
    · next d hd' => cases h; exact invariant_applyRanges _ _ _ ht _ _ _ hd' hd
  · split at h
    · cases h; exact hd
    · split at h
      · cases h
      · cases h; exact hd
      · split at h
        · cases h
        · split at h
          · cases h
          · next d hd' => cases h; exact invariant_applyRanges _ _ _ ht _ _ _ hd' hd

theorem invariant_processTargets (env : MatchEnv) (pending : List (List Nat)) (targets : List Target)
    (ht : ∀ t ∈ targets, Invariant cfg I t) : ∀ (st st' : MatchState), processTargets env cfg pending st targets = .ok st' →
      I st.doc → I st'.doc := by
  induction targets with
  | nil => intro st st' h; cases h; exact id
  | cons t ts ih =>
    intro st st' h hd
    unfold processTargets at h
    split at h
    · cases h
    · next st1 h1 =>
      exact ih (fun t ht' => ht t (List.mem_cons_of_mem _ ht')) st1 st' h
        (invariant_processTarget _ _ _ _ (ht t List.mem_cons_self) h1 hd)

theorem invariant_annotateLoop (env : MatchEnv) (n : Nat) :
    ∀ (d : Doc) (targets : List Target) (r : Doc × List Target), (∀ t ∈ targets, Invariant cfg I t) →
      annotateLoop env cfg n d targets = .ok (some r) → I d → I r.1 := by
  induction n with
  | zero =>
    intro d ts r _ h
    cases ts with
    | nil => cases h; exact id
    | cons t ts => cases h
  | succ n ih =>
    intro d ts r ht h hd
    cases ts with
    | nil => cases h; exact hd
    | cons t ts =>
      unfold annotateLoop at h
      split at h
      · cases h
      · next d1 rem h1 =>
        have hsub := (processTargetAnnotations_grows env cfg _ _ _ _ h1).2
        have g : I d1 := by
          unfold processTargetAnnotations at h1
          simp only at h1
          split at h1
          · cases h1
          · next st hst =>
            cases h1
            exact invariant_processTargets env _ _ ht _ _ hst hd
        split at h
        · cases h; exact g
        · exact ih _ _ _ (fun t h' => ht t (hsub.subset h')) h g

theorem invariant_simple (env : MatchEnv) (targets : List Target) (ht : ∀ t ∈ targets, Invariant cfg I t)
    (he : cfg.extendToLineEnabled = false) (d d' : Doc) (h : simpleAnnotate env cfg targets d = .ok d') (hd : I d) : I d' := by
  obtain ⟨d1, left, hl, rfl⟩ := C19_aux env cfg targets d d' h
  have h1 := invariant_annotateLoop env _ _ _ _ ht hl hd
  rw [if_neg (by rw [he]; intro h; cases h)]
  exact h1

/-! ### Preserved sub tags -/

/-- The name of the attribute with the preserved sub tag. -/
def keptAttr : Str := scopedAttribName preservedTagAttribName none (some subLevel)

/-- Preserved sub tags are those of `b`, or there is a new sub tag on the same line, on a token which had the same one. -/
structure SubKept (b d : Doc) : Prop where
  each : ∀ i, d.getAttr i keptAttr = b.getAttr i keptAttr ∨
    (d.getAttr i keptAttr = none ∧ ∃ j, i ∈ b.lineOf j ∧
      stripTagPrefix (b.getAttr j keptAttr) = stripTagPrefix (b.getAttr i keptAttr) ∧ truthy (d.getSubTag j) = true)

theorem SubKept.refl (b : Doc) : SubKept b b := ⟨fun _ => .inl rfl⟩

/-- Changing attributes other than sub tags. -/
theorem SubKept.other {b d d' : Doc} (h : SubKept b d) (h1 : ∀ i, d'.getAttr i keptAttr = d.getAttr i keptAttr)
    (h2 : ∀ j, truthy (d.getSubTag j) = true → truthy (d'.getSubTag j) = true) : SubKept b d' := by
  refine ⟨fun i => ?_⟩
  rw [h1]
  rcases h.each i with e | ⟨e, j, hj, hs, ht⟩
  · exact .inl e
  · exact .inr ⟨e, j, hj, hs, h2 j ht⟩

theorem SubKept.setMain {b d : Doc} (h : SubKept b d) (i : Nat) (t : Option Str) : SubKept b (d.setTagOnly i t) := by
  refine h.other (fun j => ?_) (fun j hj => ?_)
  · show (d.setAttr i _ t).getAttr j _ = _
    rw [getAttr_setAttr, if_neg (fun e => absurd e.2 (by decide))]
  · have : (d.setTagOnly i t).getSubTag j = d.getSubTag j := by
      show (d.setAttr i _ t).getAttr j _ = _
      rw [getAttr_setAttr, if_neg (fun e => absurd e.2 (by decide))]
      rfl
    rw [this]; exact hj

theorem getSubTag_setSubOnly (d : Doc) (i j : Nat) (t : Option Str) :
    (d.setTagOnly i t (some subLevel)).getSubTag j = if j = i then t else d.getSubTag j := by
  show (d.setAttr i _ t).getAttr j _ = _
  rw [getAttr_setAttr]
  by_cases h : j = i <;> simp [h] <;> rfl

theorem SubKept.setSubOnly {b d : Doc} (h : SubKept b d) (i : Nat) {t : Option Str} (ht : truthy t = true) :
    SubKept b (d.setTagOnly i t (some subLevel)) := by
  refine h.other (fun j => ?_) (fun j hj => ?_)
  · show (d.setAttr i _ t).getAttr j _ = _
    rw [getAttr_setAttr, if_neg (fun e => absurd e.2 (by decide))]
  · rw [getSubTag_setSubOnly]
    split
    · exact ht
    · exact hj

theorem SubKept.setSub {b d : Doc} (h : SubKept b d) (hl : d.lineOf = b.lineOf) (i : Nat) {t : Option Str} (ht : truthy t = true) :
    SubKept b (d.setSubTag i t) := by
  have h1 := h.setSubOnly i ht
  unfold Doc.setSubTag Doc.setTag
  simp only
  split
  · exact h1
  · split
    · rw [if_neg (by intro e; cases e)]
      have hi : truthy ((d.setTagOnly i t (some subLevel)).getSubTag i) = true := by
        rw [getSubTag_setSubOnly, if_pos rfl]; exact ht
      have hl1 : (d.setTagOnly i t (some subLevel)).lineOf = b.lineOf := hl
      generalize d.setTagOnly i t (some subLevel) = d1 at h1 hi hl1
      have hsub : ∀ j, (d1.clearSamePreserved i (some subLevel)).getSubTag j = d1.getSubTag j := by
        intro j
        show (d1.clearSamePreserved i (some subLevel)).getAttr j _ = _
        rw [getAttr_clearSamePreserved, if_neg (fun e => absurd e.2.1 (by decide))]
        rfl
      refine ⟨fun j => ?_⟩
      rw [getAttr_clearSamePreserved]
      split
      · next hc =>
        obtain ⟨hm, _, htr, heq⟩ := hc
        rcases h1.each j with e | ⟨_, k, hk, hs, htk⟩
        · rcases h1.each i with e' | ⟨e', _⟩
          · refine .inr ⟨rfl, i, by rw [← hl1]; exact hm, ?_, by rw [hsub]; exact hi⟩
            rw [← e, ← e']; exact heq.symm
          · have : d1.getAttr i keptAttr = none := e'
            rw [show d1.getAttr i _ = none from this] at htr
            cases htr
        · exact .inr ⟨rfl, k, hk, hs, by rw [hsub]; exact htk⟩
      · rcases h1.each j with e | ⟨e, k, hk, hs, htk⟩
        · exact .inl e
        · exact .inr ⟨e, k, hk, hs, by rw [hsub]; exact htk⟩
    · exact h1

theorem truthy_prefixed (cfg : MatchCfg) {n : Str} (hn : n ≠ []) (k : Nat) : truthy (addTagPrefix (some n) (indexPrefix cfg k)) = true := by
  cases n with
  | nil => exact absurd rfl hn
  | cons c n =>
    unfold indexPrefix
    split
    · split <;> rfl
    · rfl

/-- What an annotator does to preserved sub tags. -/
def KeepsSub (f : Doc → Except Err Doc) : Prop := ∀ b d d', f d = .ok d' → d.lineOf = b.lineOf → SubKept b d → SubKept b d' ∧ d'.lineOf = b.lineOf

theorem keepsSub_simple (env : MatchEnv) (cfg : MatchCfg) (targets : List Target) (hp : cfg.preserveSubAnnotations = true)
    (he : cfg.extendToLineEnabled = false) (hn : ∀ t ∈ targets, ∀ s ∈ t.subs, s.1 ≠ []) : KeepsSub (simpleAnnotate env cfg targets) := by
  intro b d d' h hl hd
  refine invariant_simple (I := fun d => SubKept b d ∧ d.lineOf = b.lineOf) env targets (fun t ht => ?_) he d d' h ⟨hd, hl⟩
  refine ⟨fun _ d is _ hd => tagTokens_each (I := fun d => SubKept b d ∧ d.lineOf = b.lineOf) (fun d i k hd => ?_) is d 0 hd,
    fun _ s hs d is _ hd => ?_⟩
  · rw [if_pos hp]
    exact ⟨hd.1.setMain _ _, hd.2⟩
  · refine subTagTokens_each (I := fun d => SubKept b d ∧ d.lineOf = b.lineOf) (fun d i k hd => ?_) is d 0 hd
    exact ⟨hd.1.setSub hd.2 i (truthy_prefixed cfg (hn t ht s hs) k), by
      rw [← hd.2]; exact (sameBut_setTag _ _ _ _ _).lineOf⟩

theorem subKept_foldl {β : Type} (f : Doc → β → Doc) (b : Doc) (hf : ∀ d x, SubKept b d ∧ d.lineOf = b.lineOf → SubKept b (f d x) ∧ (f d x).lineOf = b.lineOf)
    (l : List β) : ∀ d, SubKept b d ∧ d.lineOf = b.lineOf → SubKept b (l.foldl f d) ∧ (l.foldl f d).lineOf = b.lineOf := by
  induction l with
  | nil => exact fun d h => h
  | cons x l ih => exact fun d h => ih _ (hf d x h)

theorem keepsSub_subTagOnly {inner : Doc → Except Err Doc} (hi : KeepsSub inner) : KeepsSub (subTagOnlyAnnotate true inner) := by
  intro b d d' h hl hd
  unfold subTagOnlyAnnotate at h
  simp only at h
  split at h
  · cases h
  · next d2 hd2 =>
    obtain rfl := Except.ok.inj h
    refine subKept_foldl _ b (fun d i hd => ⟨hd.1.setMain _ _, hd.2⟩) _ _ ?_
    have h1 := subKept_foldl (fun d i => let d' := d.setTagOnly i none; if true = true then d' else d'.clearPreservedSubTag i) b
      (fun d i hd => ⟨hd.1.setMain _ _, hd.2⟩) d.allTokens d ⟨hd, hl⟩
    exact hi b _ _ hd2 h1.2 h1.1

theorem keepsSub_matchOrSubTags (env : ToolEnv) (cfg : MatchCfg) (targets : List Target) (seg : Bool) (hp : cfg.preserveSubAnnotations = true)
    (he : cfg.extendToLineEnabled = false) (hn : ∀ t ∈ targets, ∀ s ∈ t.subs, s.1 ≠ []) : KeepsSub (matchOrSubTags env cfg targets seg) := by
  unfold matchOrSubTags
  rw [hp]
  cases seg with
  | true => exact keepsSub_simple _ _ _ hp he hn
  | false => exact keepsSub_subTagOnly (keepsSub_simple _ _ _ rfl rfl hn)

theorem subKept_mergeGroup (group : Str → Option Str) {b d : Doc} (h : SubKept b d) : SubKept b (mergeGroupTags group (some subLevel) d) := by
  refine labelsIn_loop (fun st : Option Str × Doc => SubKept b st.2) _ _ (fun st i _ hd => ?_) (none, d) h
  unfold mergeGroupStep
  split
  · exact hd
  · simp only
    split
    · exact hd
    · split
      · exact hd
      · next ht =>
        refine hd.setSubOnly _ ?_
        cases hs : st.1 with
        | none => rw [hs] at ht; exact absurd rfl ht
        | some v =>
          cases v with
          | nil => rw [hs] at ht; exact absurd rfl ht
          | cons c v => rfl

theorem subKept_remove {b d : Doc} (h : SubKept b d) : SubKept b d.removeAllUntagged := ⟨h.each⟩

end Verif
