/-
Lemmas about the simple matching annotator.
-/
import Verif.Lemmas.ExtendTags
import Verif.Props.TeiDoc

namespace Verif

/-! ### Setting tags -/

theorem getTag_setTag (d : Doc) (i j : Nat) (t : Option Str) :
    (d.setTag i t).getTag j = if j = i then t else d.getTag j := by
  by_cases h : j = i
  · subst h
    rw [if_pos rfl]
    have := (Props.C12_effect d j t none none).2.2.2 j (scopedAttribName tagAttribName none none)
    rw [if_pos ⟨rfl, rfl⟩] at this
    exact this
  · rw [if_neg h]
    exact (Props.C12_frame d i t none none j).1 h none none

theorem getSubTag_setTag (d : Doc) (i j : Nat) (t : Option Str) : (d.setTag i t).getSubTag j = d.getSubTag j := by
  have := (Props.C12_effect d i t none none).2.2.2 j (scopedAttribName tagAttribName none (some subLevel))
  rw [if_neg (by rintro ⟨_, h⟩; revert h; decide), if_neg] at this
  · exact this
  · rintro ⟨_, _, _, h1 | ⟨_, h1⟩, _⟩
    · exact scopedTag_ne_preserved _ _ _ h1
    · exact scopedTag_ne_preserved _ _ _ h1

theorem getTag_setSubTag (d : Doc) (i j : Nat) (t : Option Str) : (d.setSubTag i t).getTag j = d.getTag j := by
  have := (Props.C12_effect d i t (some subLevel) none).2.2.2 j (scopedAttribName tagAttribName none none)
  rw [if_neg (by rintro ⟨_, h⟩; revert h; decide), if_neg] at this
  · exact this
  · rintro ⟨_, _, _, h1 | ⟨_, h1⟩, _⟩
    · exact scopedTag_ne_preserved _ _ _ h1
    · exact scopedTag_ne_preserved _ _ _ h1

theorem getSubTag_setSubTag (d : Doc) (i j : Nat) (t : Option Str) :
    (d.setSubTag i t).getSubTag j = if j = i then t else d.getSubTag j := by
  by_cases h : j = i
  · subst h
    rw [if_pos rfl]
    have := (Props.C12_effect d j t (some subLevel) none).2.2.2 j (scopedAttribName tagAttribName none (some subLevel))
    rw [if_pos ⟨rfl, rfl⟩] at this
    exact this
  · rw [if_neg h]
    exact (Props.C12_frame d i t (some subLevel) none j).1 h none (some subLevel)

theorem getTag_setTagOnly (d : Doc) (i j : Nat) (t : Option Str) :
    (d.setTagOnly i t).getTag j = if j = i then t else d.getTag j := by
  have := getAttr_setAttr d i j (scopedAttribName tagAttribName none none) (scopedAttribName tagAttribName none none) t
  simp only [and_true] at this
  exact this

theorem getSubTag_setTagOnly (d : Doc) (i j : Nat) (t : Option Str) : (d.setTagOnly i t).getSubTag j = d.getSubTag j := by
  have := getAttr_setAttr d i j (scopedAttribName tagAttribName none none) (scopedAttribName tagAttribName none (some subLevel)) t
  rw [if_neg (by rintro ⟨_, h⟩; revert h; decide)] at this
  exact this

/-! ### Tagging the tokens of a match -/

/-- The tag of the token at an index of a match. -/
def indexTag (cfg : MatchCfg) (name : Str) (index : Nat) : Option Str := addTagPrefix (some name) (indexPrefix cfg index)

theorem tagTokens_sameBut (cfg : MatchCfg) (name : Str) (d : Doc) (index : Nat) (is : List Nat) :
    SameBut d (tagTokens cfg name d index is) := by
  induction is generalizing d index with
  | nil => exact .refl d
  | cons i is ih =>
    unfold tagTokens
    refine SameBut.trans ?_ (ih _ _)
    split
    · exact sameBut_setAttr d i _ _
    · exact sameBut_setTag d i _ _ _

theorem tagTokens_step (cfg : MatchCfg) (d : Doc) (i j : Nat) (t : Option Str) :
    (if cfg.preserveSubAnnotations then d.setTagOnly i t else d.setTag i t).getTag j = if j = i then t else d.getTag j := by
  split
  · exact getTag_setTagOnly d i j t
  · exact getTag_setTag d i j t

theorem tagTokens_sub (cfg : MatchCfg) (name : Str) (d : Doc) (index : Nat) (is : List Nat) (j : Nat) :
    (tagTokens cfg name d index is).getSubTag j = d.getSubTag j := by
  induction is generalizing d index with
  | nil => rfl
  | cons i is ih =>
    unfold tagTokens
    simp only []
    rw [ih]
    split
    · exact getSubTag_setTagOnly d i j _
    · exact getSubTag_setTag d i j _

theorem tagTokens_other (cfg : MatchCfg) (name : Str) (d : Doc) (index : Nat) (is : List Nat) (j : Nat) (hj : j ∉ is) :
    (tagTokens cfg name d index is).getTag j = d.getTag j := by
  induction is generalizing d index with
  | nil => rfl
  | cons i is ih =>
    unfold tagTokens
    simp only []
    rw [ih _ _ (fun h => hj (by simp [h])), tagTokens_step, if_neg]
    rintro rfl
    exact hj (by simp)

theorem tagTokens_some (cfg : MatchCfg) (name : Str) (d : Doc) (index : Nat) (is : List Nat) (j : Nat) (hj : j ∈ is) :
    ∃ k, (tagTokens cfg name d index is).getTag j = indexTag cfg name k := by
  induction is generalizing d index with
  | nil => cases hj
  | cons i is ih =>
    unfold tagTokens
    simp only []
    by_cases h : j ∈ is
    · exact ih _ _ h
    · have : j = i := by rcases List.mem_cons.1 hj with h' | h'; exact h'; exact absurd h' h
      subst this
      rw [tagTokens_other _ _ _ _ _ _ h, tagTokens_step, if_pos rfl]
      exact ⟨index, rfl⟩

theorem tagTokens_get (cfg : MatchCfg) (name : Str) (d : Doc) (index : Nat) (is : List Nat) (hnd : is.Nodup) (k : Nat) (j : Nat)
    (hj : is[k]? = some j) : (tagTokens cfg name d index is).getTag j = indexTag cfg name (index + k) := by
  induction is generalizing d index k with
  | nil => simp at hj
  | cons i is ih =>
    rw [List.nodup_cons] at hnd
    unfold tagTokens
    simp only []
    cases k with
    | zero =>
      simp at hj
      subst hj
      rw [tagTokens_other _ _ _ _ _ _ hnd.1, tagTokens_step, if_pos rfl]
      rfl
    | succ k =>
      rw [ih _ _ hnd.2 k (by simpa using hj), Nat.add_assoc, Nat.add_comm 1]

theorem subTagTokens_sameBut (cfg : MatchCfg) (name : Str) (d : Doc) (index : Nat) (is : List Nat) :
    SameBut d (subTagTokens cfg name d index is) := by
  induction is generalizing d index with
  | nil => exact .refl d
  | cons i is ih =>
    unfold subTagTokens
    exact (sameBut_setTag d i _ _ _).trans (ih _ _)

theorem subTagTokens_tag (cfg : MatchCfg) (name : Str) (d : Doc) (index : Nat) (is : List Nat) (j : Nat) :
    (subTagTokens cfg name d index is).getTag j = d.getTag j := by
  induction is generalizing d index with
  | nil => rfl
  | cons i is ih =>
    unfold subTagTokens
    rw [ih, getTag_setSubTag]

theorem subTagTokens_other (cfg : MatchCfg) (name : Str) (d : Doc) (index : Nat) (is : List Nat) (j : Nat) (hj : j ∉ is) :
    (subTagTokens cfg name d index is).getSubTag j = d.getSubTag j := by
  induction is generalizing d index with
  | nil => rfl
  | cons i is ih =>
    unfold subTagTokens
    rw [ih _ _ (fun h => hj (by simp [h])), getSubTag_setSubTag, if_neg]
    rintro rfl
    exact hj (by simp)

theorem subTagTokens_some (cfg : MatchCfg) (name : Str) (d : Doc) (index : Nat) (is : List Nat) (j : Nat) (hj : j ∈ is) :
    ∃ k, (subTagTokens cfg name d index is).getSubTag j = indexTag cfg name k := by
  induction is generalizing d index with
  | nil => cases hj
  | cons i is ih =>
    unfold subTagTokens
    by_cases h : j ∈ is
    · exact ih _ _ h
    · have : j = i := by rcases List.mem_cons.1 hj with h' | h'; exact h'; exact absurd h' h
      subst this
      rw [subTagTokens_other _ _ _ _ _ _ h, getSubTag_setSubTag, if_pos rfl]
      exact ⟨index, rfl⟩

/-- What annotating a document does: text and lines stay, tags and sub tags are only set for untagged tokens
among the given ones, with the given names. -/
structure Grows (cfg : MatchCfg) (tokens : List Nat) (names subNames : List Str) (d d' : Doc) : Prop where
  same : SameBut d d'
  tag : ∀ j, d'.getTag j = d.getTag j ∨
    (truthy (d.getTag j) = false ∧ j ∈ tokens ∧ ∃ n ∈ names, ∃ k, d'.getTag j = indexTag cfg n k)
  sub : ∀ j, d'.getSubTag j = d.getSubTag j ∨
    (truthy (d.getSubTag j) = false ∧ j ∈ tokens ∧ ∃ n ∈ subNames, ∃ k, d'.getSubTag j = indexTag cfg n k)

theorem Grows.refl (cfg : MatchCfg) (tokens : List Nat) (names subNames : List Str) (d : Doc) :
    Grows cfg tokens names subNames d d := ⟨.refl d, fun _ => .inl rfl, fun _ => .inl rfl⟩

theorem Grows.trans {cfg : MatchCfg} {tokens : List Nat} {names subNames : List Str} {a b c : Doc}
    (h : Grows cfg tokens names subNames a b) (h' : Grows cfg tokens names subNames b c) :
    Grows cfg tokens names subNames a c := by
  refine ⟨h.same.trans h'.same, ?_, ?_⟩
  · intro j
    rcases h.tag j with e | ⟨e1, e2, n, hn, k, e3⟩
    · rcases h'.tag j with e' | ⟨e1', e2', rest⟩
      · exact .inl (e'.trans e)
      · exact .inr ⟨by rw [← e]; exact e1', e2', rest⟩
    · rcases h'.tag j with e' | ⟨e1', e2', rest⟩
      · exact .inr ⟨e1, e2, n, hn, k, e'.trans e3⟩
      · exact .inr ⟨e1, e2, rest⟩
  · intro j
    rcases h.sub j with e | ⟨e1, e2, n, hn, k, e3⟩
    · rcases h'.sub j with e' | ⟨e1', e2', rest⟩
      · exact .inl (e'.trans e)
      · exact .inr ⟨by rw [← e]; exact e1', e2', rest⟩
    · rcases h'.sub j with e' | ⟨e1', e2', rest⟩
      · exact .inr ⟨e1, e2, n, hn, k, e'.trans e3⟩
      · exact .inr ⟨e1, e2, rest⟩

theorem Grows.mono {cfg : MatchCfg} {tokens tokens' : List Nat} {names names' subNames subNames' : List Str} {a b : Doc}
    (h : Grows cfg tokens names subNames a b) (ht : ∀ i ∈ tokens, i ∈ tokens') (hn : ∀ n ∈ names, n ∈ names')
    (hs : ∀ n ∈ subNames, n ∈ subNames') : Grows cfg tokens' names' subNames' a b := by
  refine ⟨h.same, ?_, ?_⟩
  · intro j
    rcases h.tag j with e | ⟨e1, e2, n, hm, k, e3⟩
    · exact .inl e
    · exact .inr ⟨e1, ht j e2, n, hn n hm, k, e3⟩
  · intro j
    rcases h.sub j with e | ⟨e1, e2, n, hm, k, e3⟩
    · exact .inl e
    · exact .inr ⟨e1, ht j e2, n, hs n hm, k, e3⟩

theorem itemsBetween_sublist {α : Type} (s e : Int) (l : List (α × Nat × Nat)) : (itemsBetween s e l).Sublist l := by
  induction l with
  | nil => exact .slnil
  | cons x l ih =>
    obtain ⟨x, r⟩ := x
    unfold itemsBetween
    split
    · exact List.nil_sublist _
    · split
      · exact ih.cons_cons _
      · exact ih.cons _

theorem map_fst_zip_sublist {α β : Type} (a : List α) (b : List β) : ((a.zip b).map Prod.fst).Sublist a := by
  induction a generalizing b with
  | nil => simp
  | cons x a ih =>
    cases b with
    | nil => simp
    | cons y b => simpa using ih b

theorem tokensBetween_sublist (env : SeqEnv) (d : Doc) (s e : Int) (tokens : List Nat) :
    (tokensBetween env d s e tokens).Sublist tokens :=
  ((itemsBetween_sublist s e _).map Prod.fst).trans (map_fst_zip_sublist _ _)

theorem flatMap_sublist_flatten {α β : Type} (f : List α × β → List α) (hf : ∀ x, (f x).Sublist x.1) (l : List (List α × β)) :
    (l.flatMap f).Sublist (l.map Prod.fst).flatten := by
  induction l with
  | nil => exact .slnil
  | cons x l ih => rw [List.flatMap_cons, List.map_cons, List.flatten_cons]; exact (hf x).append ih

theorem sublist_flatten {α : Type} {a b : List (List α)} (h : a.Sublist b) : a.flatten.Sublist b.flatten := by
  induction h with
  | slnil => exact .slnil
  | cons x _ ih => rw [List.flatten_cons]; exact ih.trans (List.sublist_append_right _ _)
  | cons_cons x _ ih => rw [List.flatten_cons, List.flatten_cons]; exact (List.Sublist.refl _).append ih

/-- The tokens selected are among those of the sequences, in order. -/
theorem seqTokensBetween_sublist (env : SeqEnv) (d : Doc) (s e : Int) (seqs : List (List Nat)) :
    (seqTokensBetween env d s e seqs).Sublist seqs.flatten := by
  unfold seqTokensBetween
  refine (flatMap_sublist_flatten _ (fun x => tokensBetween_sublist _ _ _ _ _) _).trans (sublist_flatten ?_)
  exact ((itemsBetween_sublist s e _).map Prod.fst).trans (map_fst_zip_sublist _ _)

theorem mem_seqTokensBetween {env : SeqEnv} {d : Doc} {s e : Int} {seqs : List (List Nat)}
    {i : Nat} (h : i ∈ seqTokensBetween env d s e seqs) : i ∈ seqs.flatten :=
  (seqTokensBetween_sublist env d s e seqs).subset h

theorem updateRange_grows (senv : SeqEnv) (cfg : MatchCfg) (seqs : List (List Nat))
    (range : Nat × Nat) (name : Str) (subNames : List Str) (d : Doc) :
    Grows cfg seqs.flatten [name] subNames d (updateRange senv cfg seqs range name d) := by
  unfold updateRange
  simp only []
  split
  case isFalse => exact .refl _ _ _ _ _
  refine ⟨tagTokens_sameBut _ _ _ _ _, ?_, fun j => .inl (tagTokens_sub _ _ _ _ _ j)⟩
  intro j
  by_cases h : j ∈ (seqTokensBetween senv d range.1 range.2 seqs).filter (fun i => !truthy (d.getTag i))
  · obtain ⟨k, hk⟩ := tagTokens_some cfg name d 0 _ j h
    rw [List.mem_filter] at h
    exact .inr ⟨by simpa using h.2, mem_seqTokensBetween h.1, name, by simp, k, hk⟩
  · exact .inl (tagTokens_other _ _ _ _ _ j h)

theorem subRanges_grows (senv : SeqEnv) (cfg : MatchCfg) (tokens : List Nat) (names : List Str)
    (name : Str) (d d' : Doc) (err : Option Err) (rs : List (Nat × Nat))
    (h : subRanges senv cfg tokens name d err rs = .ok d') : Grows cfg tokens names [name] d d' := by
  induction rs with
  | nil =>
    unfold subRanges at h
    cases err with
    | none => cases h; exact .refl _ _ _ _ _
    | some e => cases h
  | cons r rs ih =>
    unfold subRanges at h
    simp only [] at h
    split at h
    · exact ih h
    · next hany =>
      cases h
      refine ⟨subTagTokens_sameBut _ _ _ _ _, fun j => .inl (subTagTokens_tag _ _ _ _ _ j), ?_⟩
      intro j
      by_cases hj : j ∈ seqTokensBetween senv d r.1 r.2 [tokens]
      · obtain ⟨k, hk⟩ := subTagTokens_some cfg name d 0 _ j hj
        refine .inr ⟨?_, by simpa using mem_seqTokensBetween hj, name, by simp, k, hk⟩
        cases ht : truthy (d.getSubTag j) with
        | false => rfl
        | true => exact absurd (List.any_eq_true.2 ⟨j, hj, ht⟩) hany
      · exact .inl (subTagTokens_other _ _ _ _ _ j hj)

theorem subAnnotations_grows (env : MatchEnv) (cfg : MatchCfg) (tokens : List Nat) (text : Str)
    (names : List Str) (d d' : Doc) (subs : List (Str × TargetValue))
    (h : subAnnotations env cfg tokens text d subs = .ok d') : Grows cfg tokens names (subs.map Prod.fst) d d' := by
  induction subs generalizing d with
  | nil => cases h; exact .refl _ _ _ _ _
  | cons s subs ih =>
    obtain ⟨name, v⟩ := s
    cases v with
    | many vs => cases h
    | one v =>
      unfold subAnnotations at h
      simp only [] at h
      split at h
      · cases h
      · next d1 h1 =>
        have g1 := subRanges_grows _ cfg tokens names name d d1 _ _ h1
        have g2 := ih d1 h
        exact (g1.mono (fun _ h => h) (fun _ h => h) (by simp)).trans
          (g2.mono (fun _ h => h) (fun _ h => h) (by intro n hn; simp [hn] ))

theorem processSub_grows (env : MatchEnv) (senv : SeqEnv) (cfg : MatchCfg) (seqs : List (List Nat)) (range : Nat × Nat)
    (names : List Str) (subs : List (Str × TargetValue)) (d d' : Doc)
    (h : processSub env senv cfg seqs range subs d = .ok d') : Grows cfg seqs.flatten names (subs.map Prod.fst) d d' := by
  unfold processSub at h
  split at h
  · cases h; exact .refl _ _ _ _ _
  · exact (subAnnotations_grows env cfg _ _ names d d' subs h).mono (fun _ h => mem_seqTokensBetween h) (fun _ h => h) (fun _ h => h)

theorem applyRanges_grows (env : MatchEnv) (senv : SeqEnv) (cfg : MatchCfg) (seqs : List (List Nat)) (target : Target)
    (rs : List (Nat × Nat)) (d d' : Doc) (h : applyRanges env senv cfg seqs target d rs = .ok d') :
    Grows cfg seqs.flatten [target.name] (target.subs.map Prod.fst) d d' := by
  induction rs generalizing d with
  | nil => cases h; exact .refl _ _ _ _ _
  | cons r rs ih =>
    unfold applyRanges at h
    split at h
    · cases h
    · next r' _ =>
      simp only [] at h
      have g1 := updateRange_grows senv cfg seqs r' target.name (target.subs.map Prod.fst) d
      split at h
      · cases h
      · next d2 h2 =>
        refine (g1.trans ?_).trans (ih d2 h)
        split at h2
        · exact processSub_grows env senv cfg seqs r' _ _ _ _ h2
        · cases h2; exact .refl _ _ _ _ _

theorem pendingSequences_sublist (d : Doc) (seqs : List (List Nat)) (limit : Option Nat) :
    (pendingSequences d seqs limit).flatten.Sublist seqs.flatten := by
  have hall : (seqs.flatMap (untaggedSubSequences d)).flatten.Sublist seqs.flatten := by
    rw [flatten_flatMap_untaggedSub]
    exact List.filter_sublist
  unfold pendingSequences
  simp only []
  split
  · exact hall
  · exact hall
  · exact (sublist_flatten (List.take_sublist _ _)).trans hall

theorem seqsBetween_sublist (env : SeqEnv) (d : Doc) (s e : Int) (seqs : List (List Nat)) :
    (seqsBetween env d s e seqs).Sublist seqs :=
  ((itemsBetween_sublist s e _).map Prod.fst).trans (map_fst_zip_sublist _ _)

/-- What one round keeps: the sequences consist of tokens of the document, and the left over targets are
some of those given. -/
theorem processTarget_grows (env : MatchEnv) (cfg : MatchCfg) (pending : List (List Nat)) (st st' : MatchState)
    (target : Target) (hcur : st.current.flatten.Sublist pending.flatten)
    (h : processTarget env cfg pending st target = .ok st') :
    Grows cfg pending.flatten [target.name] (target.subs.map Prod.fst) st.doc st'.doc ∧
    st'.current.flatten.Sublist pending.flatten ∧
    (st'.untagged = st.untagged ∨
      (st'.untagged = st.untagged ++ [target] ∧ st'.doc = st.doc ∧ st'.block = st.block ∧ st'.current = st.current)) := by
  unfold processTarget at h
  simp only [] at h
  split at h
  · cases h
  · split at h
    · cases h
    · next d hd =>
      cases h
      refine ⟨(applyRanges_grows _ _ _ _ _ _ _ _ hd).mono ?_ (fun _ h => h) (fun _ h => h), hcur, .inl rfl⟩
      exact fun i hi => hcur.subset ((pendingSequences_sublist _ _ _).subset hi)
  · split at h
    · cases h; exact ⟨.refl _ _ _ _ _, hcur, .inr ⟨rfl, rfl, rfl, rfl⟩⟩
    · split at h
      · cases h
      · cases h; exact ⟨.refl _ _ _ _ _, hcur, .inr ⟨rfl, rfl, rfl, rfl⟩⟩
      · split at h
        · cases h
        · split at h
          · cases h
          · next d hd =>
            cases h
            refine ⟨(applyRanges_grows _ _ _ _ _ _ _ _ hd).mono ?_ (fun _ h => h) (fun _ h => h), ?_, .inl rfl⟩
            · exact fun i hi => (pendingSequences_sublist _ _ _).subset hi
            · exact (sublist_flatten (seqsBetween_sublist _ _ _ _ _)).trans (pendingSequences_sublist _ _ _)

/-- Names of all targets and of all their sub annotations. -/
def targetNames (targets : List Target) : List Str := targets.map (·.name)
def targetSubNames (targets : List Target) : List Str := targets.flatMap (fun t => t.subs.map Prod.fst)

theorem processTargets_grows (env : MatchEnv) (cfg : MatchCfg) (pending : List (List Nat)) (targets : List Target)
    (st st' : MatchState) (hcur : st.current.flatten.Sublist pending.flatten)
    (h : processTargets env cfg pending st targets = .ok st') :
    Grows cfg pending.flatten (targetNames targets) (targetSubNames targets) st.doc st'.doc ∧
    ∃ left, st'.untagged = st.untagged ++ left ∧ left.Sublist targets := by
  induction targets generalizing st with
  | nil => cases h; exact ⟨.refl _ _ _ _ _, [], by simp, .slnil⟩
  | cons t ts ih =>
    unfold processTargets at h
    split at h
    · cases h
    · next st1 h1 =>
      obtain ⟨g1, hc1, hu⟩ := processTarget_grows env cfg pending st st1 t hcur h1
      obtain ⟨g2, left, hl, hs⟩ := ih st1 hc1 h
      refine ⟨?_, ?_⟩
      · refine (g1.mono (fun _ h => h) ?_ ?_).trans (g2.mono (fun _ h => h) ?_ ?_)
        · intro n hn; simp at hn; simp [targetNames, hn]
        · intro n hn; rw [targetSubNames, List.flatMap_cons]; exact List.mem_append_left _ hn
        · intro n hn; exact List.mem_cons_of_mem _ hn
        · intro n hn; rw [targetSubNames, List.flatMap_cons]; exact List.mem_append_right _ hn
      · rcases hu with hu | ⟨hu, _⟩
        · exact ⟨left, by rw [hl, hu], hs.cons _⟩
        · exact ⟨t :: left, by rw [hl, hu, List.append_assoc]; rfl, hs.cons_cons _⟩

theorem pendingOfDoc_subset (d : Doc) : ∀ i ∈ (pendingOfDoc d).flatten, i ∈ d.nonSpaceTokens := by
  rw [pendingOfDoc_flatten]
  intro i hi
  exact (List.mem_filter.1 hi).1

theorem targetNames_subset {a b : List Target} (h : a.Sublist b) : ∀ n ∈ targetNames a, n ∈ targetNames b :=
  fun _ hn => (h.map _).subset hn

theorem targetSubNames_subset {a b : List Target} (h : a.Sublist b) : ∀ n ∈ targetSubNames a, n ∈ targetSubNames b := by
  intro n hn
  obtain ⟨t, ht, hn⟩ := List.mem_flatMap.1 hn
  exact List.mem_flatMap.2 ⟨t, h.subset ht, hn⟩

theorem processTargetAnnotations_grows (env : MatchEnv) (cfg : MatchCfg) (d d' : Doc) (targets remaining : List Target)
    (h : processTargetAnnotations env cfg d targets = .ok (d', remaining)) :
    Grows cfg d.nonSpaceTokens (targetNames targets) (targetSubNames targets) d d' ∧ remaining.Sublist targets := by
  unfold processTargetAnnotations at h
  simp only [] at h
  split at h
  · cases h
  · next st hst =>
    cases h
    obtain ⟨g, left, hl, hs⟩ := processTargets_grows env cfg (pendingOfDoc d) targets
      ⟨d, pendingOfDoc d, none, []⟩ st (List.Sublist.refl _) hst
    refine ⟨g.mono (pendingOfDoc_subset d) (fun _ h => h) (fun _ h => h), ?_⟩
    rw [hl]
    simpa using hs

theorem SameBut.nonSpaceTokens {d d' : Doc} (h : SameBut d d') : d'.nonSpaceTokens = d.nonSpaceTokens := by
  unfold Doc.nonSpaceTokens; rw [h.lines]

theorem annotateLoop_grows (env : MatchEnv) (cfg : MatchCfg) (n : Nat) (d d' : Doc) (targets left : List Target)
    (h : annotateLoop env cfg n d targets = .ok (some (d', left))) :
    Grows cfg d.nonSpaceTokens (targetNames targets) (targetSubNames targets) d d' ∧ left.Sublist targets := by
  induction n generalizing d targets with
  | zero =>
    cases targets with
    | nil => cases h; exact ⟨.refl _ _ _ _ _, .slnil⟩
    | cons t ts => cases h
  | succ n ih =>
    cases targets with
    | nil => cases h; exact ⟨.refl _ _ _ _ _, .slnil⟩
    | cons t ts =>
      unfold annotateLoop at h
      split at h
      · cases h
      · next d1 rem h1 =>
        obtain ⟨g, hs⟩ := processTargetAnnotations_grows env cfg d d1 _ rem h1
        split at h
        · cases h; exact ⟨g, hs⟩
        · obtain ⟨g', hs'⟩ := ih d1 rem h
          rw [g.same.nonSpaceTokens] at g'
          exact ⟨g.trans (g'.mono (fun _ h => h) (targetNames_subset hs) (targetSubNames_subset hs)), hs'.trans hs⟩

/-! ### Termination -/

theorem annotateLoop_fuel (env : MatchEnv) (cfg : MatchCfg) (n : Nat) (d : Doc) (targets : List Target)
    (hn : targets.length ≤ n) :
    annotateLoop env cfg n d targets ≠ .ok none ∧
    annotateLoop env cfg n d targets = annotateLoop env cfg targets.length d targets := by
  induction n using Nat.strongRecOn generalizing d targets with
  | ind n ih =>
    cases targets with
    | nil => unfold annotateLoop; exact ⟨by simp, rfl⟩
    | cons t ts =>
      cases n with
      | zero => simp at hn
      | succ n =>
        rw [List.length_cons]
        unfold annotateLoop
        cases hp : processTargetAnnotations env cfg d (t :: ts) with
        | error e => simp
        | ok r =>
          obtain ⟨d1, rem⟩ := r
          have hs := (processTargetAnnotations_grows env cfg d d1 _ rem hp).2
          have hlen := hs.length_le
          simp only []
          split
          · simp
          · next hne =>
            simp only [List.length_cons] at hlen hne hn
            have h1 := ih n (by omega) d1 rem (by omega)
            refine ⟨h1.1, ?_⟩
            rw [h1.2]
            by_cases hlt : ts.length < n + 1
            · exact (ih ts.length hlt d1 rem (by omega)).2.symm
            · omega

/-! ### The last round -/

theorem processTargets_none (env : MatchEnv) (cfg : MatchCfg) (pending : List (List Nat)) (targets : List Target)
    (st st' : MatchState) (hb : st.block = none) (hcur : st.current.flatten.Sublist pending.flatten)
    (h : processTargets env cfg pending st targets = .ok st')
    (hlen : st'.untagged.length = st.untagged.length + targets.length) :
    st'.doc = st.doc ∧ st'.untagged = st.untagged ++ targets ∧
    ∀ t ∈ targets, matchingRanges env cfg
      (seqsText (matchSeqEnv env) st.doc (pendingSequences st.doc pending none)) t = .ok [] := by
  induction targets generalizing st with
  | nil => cases h; simp
  | cons t ts ih =>
    unfold processTargets at h
    split at h
    · cases h
    · next st1 h1 =>
      obtain ⟨_, hc1, hu⟩ := processTarget_grows env cfg pending st st1 t hcur h1
      obtain ⟨_, left, hl, hs⟩ := processTargets_grows env cfg pending ts st1 st' hc1 h
      have hll := hs.length_le
      have hlen1 := congrArg List.length hl
      rw [List.length_append] at hlen1
      rw [List.length_cons] at hlen
      rcases hu with hu | ⟨hu, hd, hb1, hc⟩
      · rw [hu] at hlen1; omega
      · rw [hu, List.length_append, List.length_singleton] at hlen1
        obtain ⟨i1, i2, i3⟩ := ih st1 (hb1.trans hb) hc1 h (by rw [hu, List.length_append, List.length_singleton]; omega)
        refine ⟨i1.trans hd, by rw [i2, hu, List.append_assoc]; rfl, ?_⟩
        intro x hx
        rcases List.mem_cons.1 hx with rfl | hx
        · unfold processTarget at h1
          simp only [] at h1
          split at h1
          · cases h1
          · split at h1
            · cases h1
            · cases h1
              have := congrArg List.length hu
              simp at this
          · split at h1
            · next hblk =>
              rw [hb] at hblk
              cases hc : cfg.tagConfig x.name with
              | mk a b c e f g =>
                rw [hc] at hblk
                unfold pyOr at hblk
                revert hblk
                cases g <;> simp
                split <;> simp
            · split at h1
              · cases h1
              · next h2 => exact h2
              · split at h1
                · cases h1
                · split at h1
                  · cases h1
                  · cases h1
                    have := congrArg List.length hu
                    simp at this
        · have := i3 x hx
          rw [hd] at this
          exact this

theorem annotateLoop_complete (env : MatchEnv) (cfg : MatchCfg) (n : Nat) (d d' : Doc) (targets left : List Target)
    (h : annotateLoop env cfg n d targets = .ok (some (d', left))) :
    ∀ t ∈ left, matchingRanges env cfg
      (seqsText (matchSeqEnv env) d' (pendingSequences d' (pendingOfDoc d') none)) t = .ok [] := by
  induction n generalizing d targets with
  | zero =>
    cases targets with
    | nil => cases h; simp
    | cons t ts => cases h
  | succ n ih =>
    cases targets with
    | nil => cases h; simp
    | cons t ts =>
      unfold annotateLoop at h
      split at h
      · cases h
      · next d1 rem h1 =>
        split at h
        · next hlen =>
          cases h
          unfold processTargetAnnotations at h1
          simp only [] at h1
          split at h1
          · cases h1
          · next st hst =>
            cases h1
            obtain ⟨e1, e2, e3⟩ := processTargets_none env cfg (pendingOfDoc d) (t :: ts)
              ⟨d, pendingOfDoc d, none, []⟩ st rfl (List.Sublist.refl _) hst
              (by rw [hlen]; simp)
            rw [e1, e2]
            simpa using e3
        · exact ih d1 rem h

/-! ### Extending the tags of a document -/

theorem extended_proper (cfg : ExtendCfg) (tags : List (Option Str)) (hp : ∀ t ∈ tags, Spec.ProperTag t) :
    ∀ t ∈ extendedLineTags cfg tags, Spec.ProperTag t := by
  apply extended_forall cfg Spec.ProperTag tags hp properTag_none
  · exact fun t ht => (toInsideTag_spec ht).2
  · intro t ht n x hx
    cases n with
    | zero => cases hx
    | succ n =>
      unfold toBeginInsideTags at hx
      have hpre (v : Str) (hv : v ≠ []) (hx : x ∈ addTagPrefix (some v) (some bPrefix) ::
          List.replicate n (addTagPrefix (some v) (some iPrefix))) : Spec.ProperTag x := by
        rw [addTagPrefix_of_truthy hv (by decide), addTagPrefix_of_truthy hv (by decide)] at hx
        rcases List.mem_cons.1 hx with rfl | hx
        · exact properTag_b hv
        · rw [(List.mem_replicate.1 hx).2]; exact properTag_i hv
      rcases splitTagPrefix_cases t with ⟨v, rfl, h'⟩ | ⟨v, rfl, h'⟩ | ⟨_, _, h'⟩
      · rw [h'] at hx
        simp only [] at hx
        rw [if_neg (by decide)] at hx
        exact hpre v (properTag_value_ne ht (stripTagPrefix_b v)) hx
      · rw [h'] at hx
        simp only [] at hx
        rw [if_neg (by decide)] at hx
        exact hpre v (properTag_value_ne ht (stripTagPrefix_i v)) hx
      · rw [h'] at hx
        simp only [] at hx
        rw [if_pos (by decide)] at hx
        rw [(List.mem_replicate.1 hx).2]; exact ht
  · intro g hg x hx
    cases g with
    | nil => cases hx
    | cons t ts =>
      have ht := hg t (by simp)
      unfold mergedTags at hx
      simp only [] at hx
      have hpre (v : Str) (hv : v ≠ []) (hx : x ∈ t :: List.replicate ts.length (addTagPrefix (some v) (some iPrefix))) :
          Spec.ProperTag x := by
        rw [addTagPrefix_of_truthy hv (by decide)] at hx
        rcases List.mem_cons.1 hx with rfl | hx
        · exact ht
        · rw [(List.mem_replicate.1 hx).2]; exact properTag_i hv
      rcases splitTagPrefix_cases t with ⟨v, rfl, h'⟩ | ⟨v, rfl, h'⟩ | ⟨_, _, h'⟩
      · rw [h'] at hx
        simp only [] at hx
        rw [if_neg (by decide)] at hx
        exact hpre v (properTag_value_ne ht (stripTagPrefix_b v)) hx
      · rw [h'] at hx
        simp only [] at hx
        rw [if_neg (by decide)] at hx
        exact hpre v (properTag_value_ne ht (stripTagPrefix_i v)) hx
      · rw [h'] at hx
        simp only [] at hx
        rw [if_pos (by decide)] at hx
        exact hg x hx

theorem extended_length (cfg : ExtendCfg) (tags : List (Option Str)) (hp : ∀ t ∈ tags, Spec.ProperTag t) :
    (extendedLineTags cfg tags).length = tags.length := by
  have := congrArg List.length (extended_values cfg tags hp)
  rw [List.length_map, valLoop_length, runs_length, List.length_map] at this
  exact this

/-- Where a new tag is missing there was none. -/
theorem extended_none (cfg : ExtendCfg) (tags : List (Option Str)) (hp : ∀ t ∈ tags, Spec.ProperTag t) (i : Nat) (t t' : Option Str)
    (ht : tags[i]? = some t) (ht' : (extendedLineTags cfg tags)[i]? = some t') (hf : truthy t' = false) : t' = none ∧ t = none := by
  have hp' := extended_proper cfg tags hp t' (List.mem_of_getElem? ht')
  have e' : t' = none := by
    have := mt (truthy_properTag hp').2 (by rw [hf]; simp)
    exact properTag_value_none.1 (Classical.byContradiction this)
  refine ⟨e', ?_⟩
  cases hs : stripTagPrefix t with
  | none => exact properTag_value_none.1 hs
  | some v =>
    have := valLoop_keeps cfg (runs (tags.map stripTagPrefix)) none i v (by
      rw [runs_flatten, List.getElem?_map, ht, Option.map_some, hs])
    rw [← extended_values cfg tags hp, List.getElem?_map, ht', e'] at this
    cases this

/-- Setting some tags. -/
def setTags (d : Doc) (ps : List (Nat × Option Str)) : Doc :=
  ps.foldl (fun d x => if truthy x.2 then d.setTag x.1 x.2 else d) d

theorem setTags_sameBut (ps : List (Nat × Option Str)) (d : Doc) : SameBut d (setTags d ps) := by
  refine sameBut_foldl _ ?_ ps d
  intro d x
  split
  · exact sameBut_setTag d _ _ _ _
  · exact .refl d

theorem setTags_sub (ps : List (Nat × Option Str)) (d : Doc) (j : Nat) : (setTags d ps).getSubTag j = d.getSubTag j := by
  unfold setTags
  induction ps generalizing d with
  | nil => rfl
  | cons x ps ih =>
    rw [List.foldl_cons, ih]
    split
    · exact getSubTag_setTag d _ _ _
    · rfl

theorem setTags_other (ps : List (Nat × Option Str)) (d : Doc) (j : Nat) (hj : j ∉ ps.map Prod.fst) :
    (setTags d ps).getTag j = d.getTag j := by
  unfold setTags
  induction ps generalizing d with
  | nil => rfl
  | cons x ps ih =>
    simp only [List.map_cons, List.mem_cons, not_or] at hj
    rw [List.foldl_cons, ih _ hj.2]
    split
    · rw [getTag_setTag, if_neg hj.1]
    · rfl

theorem setTags_get (ps : List (Nat × Option Str)) (d : Doc) (hnd : (ps.map Prod.fst).Nodup) (x : Nat × Option Str) (hx : x ∈ ps) :
    (setTags d ps).getTag x.1 = if truthy x.2 = true then x.2 else d.getTag x.1 := by
  induction ps generalizing d with
  | nil => cases hx
  | cons y ps ih =>
    rw [List.map_cons, List.nodup_cons] at hnd
    have e : setTags d (y :: ps) = setTags (if truthy y.2 then d.setTag y.1 y.2 else d) ps := rfl
    rw [e]
    rcases List.mem_cons.1 hx with rfl | hx
    · rw [setTags_other _ _ _ hnd.1]
      split
      · rw [getTag_setTag, if_pos rfl]
      · rfl
    · rw [ih _ hnd.2 hx]
      have hne : x.1 ≠ y.1 := fun h => hnd.1 (h ▸ List.mem_map_of_mem hx)
      split
      · rfl
      · split
        · rw [getTag_setTag, if_neg hne]
        · rfl

theorem extendLine_eq (ecfg : ExtendCfg) (d : Doc) (l : Line) :
    extendLine ecfg d l = setTags d (l.nonSpace.zip (extendedLineTags ecfg (l.nonSpace.map (fun i => d.getTag i)))) := rfl

theorem extendLine_other (ecfg : ExtendCfg) (d : Doc) (l : Line) (j : Nat) (hj : j ∉ l.nonSpace) :
    (extendLine ecfg d l).getTag j = d.getTag j := by
  rw [extendLine_eq]
  apply setTags_other
  intro h
  exact hj ((map_fst_zip_sublist _ _).subset h)

theorem extendLine_tags (ecfg : ExtendCfg) (d : Doc) (l : Line) (hnd : l.nonSpace.Nodup)
    (hp : ∀ i ∈ l.nonSpace, Spec.ProperTag (d.getTag i)) :
    l.nonSpace.map (fun i => (extendLine ecfg d l).getTag i) = extendedLineTags ecfg (l.nonSpace.map (fun i => d.getTag i)) := by
  have hpt : ∀ t ∈ l.nonSpace.map (fun i => d.getTag i), Spec.ProperTag t := by
    intro t ht
    obtain ⟨i, hi, rfl⟩ := List.mem_map.1 ht
    exact hp i hi
  have hlen := extended_length ecfg _ hpt
  rw [List.length_map] at hlen
  apply List.ext_getElem?
  intro k
  rw [List.getElem?_map]
  cases hk : l.nonSpace[k]? with
  | none =>
    rw [Option.map_none]
    symm
    rw [List.getElem?_eq_none_iff] at hk ⊢
    omega
  | some i =>
    rw [Option.map_some]
    have hklt := (List.getElem?_eq_some_iff.1 hk).1
    have hkt : (extendedLineTags ecfg (l.nonSpace.map (fun i => d.getTag i)))[k]? =
        some ((extendedLineTags ecfg (l.nonSpace.map (fun i => d.getTag i)))[k]'(by omega)) := List.getElem?_eq_getElem _
    generalize (extendedLineTags ecfg (l.nonSpace.map (fun i => d.getTag i)))[k]'(by omega) = t at hkt
    have hmem : (i, t) ∈ l.nonSpace.zip (extendedLineTags ecfg (l.nonSpace.map (fun i => d.getTag i))) := by
      apply List.mem_of_getElem? (i := k)
      rw [List.getElem?_zip_eq_some]
      exact ⟨hk, hkt⟩
    have := setTags_get _ d (hnd.sublist (map_fst_zip_sublist _ _)) (i, t) hmem
    rw [extendLine_eq, this, hkt]
    congr 1
    split
    · rfl
    · next hf =>
      have := extended_none ecfg _ hpt k (d.getTag i) t (by rw [List.getElem?_map, hk]; rfl) hkt (by simpa using hf)
      rw [this.1, this.2]

theorem extendLines_spec (ecfg : ExtendCfg) (ls : List Line) (d : Doc) (hnd : (ls.flatMap (·.nonSpace)).Nodup)
    (hp : ∀ i, Spec.ProperTag (d.getTag i)) :
    SameBut d (ls.foldl (extendLine ecfg) d) ∧
    (∀ j, (ls.foldl (extendLine ecfg) d).getSubTag j = d.getSubTag j) ∧
    (∀ j, j ∉ ls.flatMap (·.nonSpace) → (ls.foldl (extendLine ecfg) d).getTag j = d.getTag j) ∧
    (∀ l ∈ ls, l.nonSpace.map (fun i => (ls.foldl (extendLine ecfg) d).getTag i) =
      extendedLineTags ecfg (l.nonSpace.map (fun i => d.getTag i))) := by
  induction ls generalizing d with
  | nil => exact ⟨.refl d, fun _ => rfl, fun _ _ => rfl, by simp⟩
  | cons l ls ih =>
    rw [List.flatMap_cons, List.nodup_append] at hnd
    obtain ⟨h1, h2, h3⟩ := hnd
    have hline := extendLine_tags ecfg d l h1 (fun i _ => hp i)
    have hp' : ∀ i, Spec.ProperTag ((extendLine ecfg d l).getTag i) := by
      intro i
      by_cases hi : i ∈ l.nonSpace
      · have : (extendLine ecfg d l).getTag i ∈ extendedLineTags ecfg (l.nonSpace.map (fun i => d.getTag i)) := by
          rw [← hline]
          exact List.mem_map_of_mem hi
        refine extended_proper ecfg _ ?_ _ this
        intro t ht
        obtain ⟨i, _, rfl⟩ := List.mem_map.1 ht
        exact hp i
      · rw [extendLine_other _ _ _ _ hi]; exact hp i
    obtain ⟨i1, i2, i3, i4⟩ := ih (extendLine ecfg d l) h2 hp'
    rw [List.foldl_cons]
    refine ⟨?_, ?_, ?_, ?_⟩
    · exact (setTags_sameBut _ d).trans i1
    · intro j; rw [i2]; exact setTags_sub _ d j
    · intro j hj
      rw [List.flatMap_cons, List.mem_append, not_or] at hj
      rw [i3 j hj.2, extendLine_other _ _ _ _ hj.1]
    · intro l' hl'
      rcases List.mem_cons.1 hl' with rfl | hl'
      · rw [← hline]
        apply List.map_congr_left
        intro i hi
        exact i3 i (fun h => h3 i hi i h rfl)
      · rw [i4 l' hl']
        congr 1
        apply List.map_congr_left
        intro i hi
        exact extendLine_other _ _ _ _ (fun h => h3 i h i (List.mem_flatMap.2 ⟨l', hl', hi⟩) rfl)

theorem indexTag_value (cfg : MatchCfg) (name : Str) (k : Nat) (hn : Spec.ProperTag (some name)) :
    Spec.ProperTag (indexTag cfg name k) ∧
    (cfg.useBeginPrefix = true → indexTag cfg name k = some ((if k = 0 then bPrefix else iPrefix) ++ name)) ∧
    (cfg.useBeginPrefix = false → indexTag cfg name k = some name) := by
  have hne := (hn name rfl).1
  unfold indexTag indexPrefix
  cases cfg.useBeginPrefix with
  | false => simp only [Bool.false_eq_true, if_false]; exact ⟨by simpa [addTagPrefix] using hn, by simp, by simp [addTagPrefix]⟩
  | true =>
    simp only [if_true]
    split
    · rw [addTagPrefix_of_truthy hne (by decide)]; exact ⟨properTag_b hne, by simp, by simp⟩
    · rw [addTagPrefix_of_truthy hne (by decide)]; exact ⟨properTag_i hne, by simp, by simp⟩

theorem indexTag_strip (cfg : MatchCfg) (name : Str) (k : Nat) (hne : name ≠ [])
    (hn : Spec.tagValue (some name) = some name) : stripTagPrefix (indexTag cfg name k) = some name := by
  have hp : Spec.ProperTag (some name) := by
    intro s hs
    cases hs
    exact ⟨hne, by rw [hn]; simpa using hne⟩
  obtain ⟨_, h1, h2⟩ := indexTag_value cfg name k hp
  cases hb : cfg.useBeginPrefix with
  | false => rw [h2 hb, stripTagPrefix_eq_tagValue, hn]
  | true =>
    rw [h1 hb]
    split
    · exact stripTagPrefix_b name
    · exact stripTagPrefix_i name

theorem Grows.proper {cfg : MatchCfg} {tokens : List Nat} {names subNames : List Str} {d d' : Doc}
    (h : Grows cfg tokens names subNames d d') (hn : ∀ n ∈ names, Spec.ProperTag (some n))
    (hp : ∀ i, Spec.ProperTag (d.getTag i)) : ∀ i, Spec.ProperTag (d'.getTag i) := by
  intro i
  rcases h.tag i with e | ⟨_, _, n, hm, k, e⟩
  · rw [e]; exact hp i
  · rw [e]; exact (indexTag_value cfg n k (hn n hm)).1

end Verif
