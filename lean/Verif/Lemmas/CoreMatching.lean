/-
Lemmas about the annotator comparing values with lines.
-/
import Verif.Spec.CoreMatching
import Verif.Lemmas.SimpleMatching
import Verif.Lemmas.PyList

namespace Verif

open Spec (newTag spans tokensIn MatchersOk matchTokens)

theorem addTagPrefix_new (cfg : CoreCfg) (first : Bool) (name : Str) (h : name ≠ []) :
    addTagPrefix (some name) (corePrefix cfg first) = newTag cfg.useBeginPrefix first name := by
  unfold corePrefix newTag
  cases cfg.useBeginPrefix with
  | false => simp [addTagPrefix]
  | true =>
    simp only [if_true]
    rw [addTagPrefix_of_truthy h (by cases first <;> decide)]
    cases first <;> rfl

theorem truthy_newTag (u f : Bool) (name : Str) (h : name ≠ []) : truthy (newTag u f name) = true := by
  unfold newTag
  cases u <;> cases f <;> simp [truthy_some, h]

/-! ### Tokens of a match -/

theorem spans_ge (o : Nat) (ss : List Str) : ∀ r ∈ spans o ss, o ≤ r.1 := by
  induction ss generalizing o with
  | nil => intro r hr; cases hr
  | cons s ss ih =>
    intro r hr
    rcases List.mem_cons.1 hr with rfl | hr
    · exact Nat.le_refl _
    · have := ih _ r hr
      omega

theorem coreBetweenLoop_eq (start e i : Nat) (tokens : List Nat) (text : Nat → Str) :
    coreBetweenLoop start e i (tokens.zip (tokens.map text)) =
      ((tokens.zip (spans i (tokens.map text))).filter (fun x => Spec.overlaps start e x.2)).map Prod.fst := by
  induction tokens generalizing i with
  | nil => rfl
  | cons t ts ih =>
    simp only [List.map_cons, List.zip_cons_cons, coreBetweenLoop, spans]
    by_cases h : e ≤ i
    · rw [if_pos h]
      symm
      rw [List.map_eq_nil_iff, List.filter_eq_nil_iff]
      intro x hx
      have hge : i ≤ x.2.1 := by
        rcases List.mem_cons.1 hx with rfl | hx
        · exact Nat.le_refl _
        · have := spans_ge _ _ x.2 (List.of_mem_zip hx).2
          omega
      simp only [Spec.overlaps, Bool.and_eq_true, decide_eq_true_eq, not_and]
      intro h1
      omega
    · rw [if_neg h, ih, List.filter_cons]
      by_cases h2 : start < i + (text t).length
      · rw [if_pos h2, if_pos (by simp only [Spec.overlaps, Bool.and_eq_true, decide_eq_true_eq]; omega)]
        rfl
      · rw [if_neg h2, if_neg (by simp only [Spec.overlaps, Bool.and_eq_true, decide_eq_true_eq]; omega)]

theorem coreTokensBetween_eq (env : CoreEnv) (filter : Str → Str) (d : Doc) (r : Nat × Nat) (s : CoreSeq) :
    coreTokensBetween env filter d r s = tokensIn (fun i => filter (d.getText env.cc i)) s.tokens r :=
  coreBetweenLoop_eq r.1 r.2 0 s.tokens _

theorem tokensIn_sublist (text : Nat → Str) (tokens : List Nat) (r : Nat × Nat) : (tokensIn text tokens r).Sublist tokens :=
  ((List.filter_sublist).map _).trans (map_fst_zip_sublist _ _)

theorem mem_coreTokensBetween {env : CoreEnv} {filter : Str → Str} {d : Doc} {r : Nat × Nat} {s : CoreSeq} {i : Nat}
    (h : i ∈ coreTokensBetween env filter d r s) : i ∈ s.tokens := by
  rw [coreTokensBetween_eq] at h
  exact (tokensIn_sublist _ _ _).mem h

theorem getText_sameBut {cc : CharClass} {d d' : Doc} (h : SameBut d d') (i : Nat) : d'.getText cc i = d.getText cc i := by
  unfold Doc.getText Tok.strippedText
  rw [h.text i]

theorem coreTokensBetween_sameBut {env : CoreEnv} {filter : Str → Str} {d d' : Doc} (h : SameBut d d') (r : Nat × Nat)
    (s : CoreSeq) : coreTokensBetween env filter d' r s = coreTokensBetween env filter d r s := by
  rw [coreTokensBetween_eq, coreTokensBetween_eq]
  congr 1
  funext i
  rw [getText_sameBut h]

theorem coreSeqText_sameBut {env : CoreEnv} {filter : Str → Str} {d d' : Doc} (h : SameBut d d') :
    coreSeqText env filter d' = coreSeqText env filter d := by
  funext s
  unfold coreSeqText coreTokenTexts
  simp only [getText_sameBut h]

/-! ### The sequences of the matches -/

theorem regularStep_seq {env : CoreEnv} {cfg : CoreCfg} {s1 : Str} {st : FindState} {choice : CoreSeq} {cur : Str}
    {next : Option (CoreSeq × Str)} {r : ChoiceResult} (h : regularStep env cfg s1 st choice cur next = .ok r) :
    ∀ m ∈ r.found, m.seq = choice ∨ ∃ n, next = some n ∧ m.seq = n.1 := by
  unfold regularStep at h
  simp only at h
  split at h
  · split at h
    · cases next with
      | none => cases h
      | some n =>
        simp only [Except.ok.injEq] at h
        subst h
        intro m hm
        simp only [List.mem_cons, List.not_mem_nil, or_false] at hm
        rcases hm with rfl | rfl
        · exact Or.inl rfl
        · exact Or.inr ⟨n, rfl, rfl⟩
    · simp only [Except.ok.injEq] at h
      subst h
      intro m hm
      simp only [List.mem_singleton] at hm
      subst hm
      exact Or.inl rfl
  · simp only [Except.ok.injEq] at h
    subst h
    intro m hm
    cases hm

theorem shortStep_seq {env : CoreEnv} {cfg : CoreCfg} {s1 : Str} {st : FindState} {choice : CoreSeq} {cur : Str}
    {next : Option (CoreSeq × Str)} {r : ChoiceResult} (h : shortStep env cfg s1 st choice cur next = .ok r) :
    ∀ m ∈ r.found, m.seq = choice ∨ ∃ n, next = some n ∧ m.seq = n.1 := by
  unfold shortStep at h
  simp only at h
  split at h
  · split at h
    · cases next with
      | none => cases h
      | some n =>
        simp only [Except.ok.injEq] at h
        subst h
        intro m hm
        simp only [List.mem_cons, List.not_mem_nil, or_false] at hm
        rcases hm with rfl | rfl
        · exact Or.inl rfl
        · exact Or.inr ⟨n, rfl, rfl⟩
    · simp only [Except.ok.injEq] at h
      subst h
      intro m hm
      simp only [List.mem_singleton] at hm
      subst hm
      exact Or.inl rfl
  · simp only [Except.ok.injEq] at h
    subst h
    intro m hm
    cases hm

theorem choiceStep_seq {env : CoreEnv} {cfg : CoreCfg} {isSub : Bool} {s1 : Str} {st : FindState} {choice : CoreSeq}
    {cur : Str} {next : Option (CoreSeq × Str)} {r : ChoiceResult}
    (h : choiceStep env cfg isSub s1 st choice cur next = .ok r) :
    ∀ m ∈ r.found, m.seq = choice ∨ ∃ n, next = some n ∧ m.seq = n.1 := by
  unfold choiceStep at h
  split at h
  · exact shortStep_seq h
  · exact regularStep_seq h

theorem findLoop_spec {env : CoreEnv} {cfg : CoreCfg} {isSub : Bool} {text : CoreSeq → Str} {s1 : Str}
    {ps : List (CoreSeq × Option CoreSeq)} :
    ∀ {st : FindState} {r : FindResult}, findLoop env cfg isSub text s1 st ps = .ok r →
    (∀ m ∈ r.found, ∃ p ∈ ps, m.seq = p.1 ∨ p.2 = some m.seq) ∧
    (∀ k, r.used = some k → 1 ≤ k ∧ k ≤ ps.length) := by
  induction ps with
  | nil =>
    intro st r h
    simp only [findLoop, Except.ok.injEq] at h
    subst h
    exact ⟨fun m hm => (by cases hm), fun k hk => (by cases hk)⟩
  | cons p ps ih =>
    obtain ⟨choice, next⟩ := p
    intro st r h
    unfold findLoop at h
    split at h
    · split at h
      · cases h
      · rename_i r' hr'
        simp only [Except.ok.injEq] at h
        subst h
        have := ih hr'
        refine ⟨fun m hm => ?_, fun k hk => ?_⟩
        · obtain ⟨p, hp, hm'⟩ := this.1 m hm
          exact ⟨p, by simp [hp], hm'⟩
        · simp only [Option.map_eq_some_iff] at hk
          obtain ⟨k', hk', rfl⟩ := hk
          have := this.2 k' hk'
          simp only [List.length_cons]
          omega
    · split at h
      · simp only [Except.ok.injEq] at h
        subst h
        refine ⟨fun m hm => (by cases hm), fun k hk => ?_⟩
        simp only [Option.some.injEq] at hk
        subst hk
        simp
      · split at h
        · cases h
        · rename_i rc hrc
          have hseq : ∀ m ∈ rc.found, ∃ p ∈ (choice, next) :: ps, m.seq = p.1 ∨ p.2 = some m.seq := by
            intro m hm
            rcases choiceStep_seq hrc m hm with h1 | ⟨n, h1, h2⟩
            · exact ⟨(choice, next), by simp, Or.inl h1⟩
            · simp only [Option.map_eq_some_iff] at h1
              obtain ⟨n', h3, rfl⟩ := h1
              exact ⟨(choice, next), by simp, Or.inr (by simp [h3, h2])⟩
          split at h
          · simp only [Except.ok.injEq] at h
            subst h
            refine ⟨hseq, fun k hk => ?_⟩
            simp only [Option.some.injEq] at hk
            subst hk
            simp
          · split at h
            · cases h
            · rename_i r' hr'
              simp only [Except.ok.injEq] at h
              subst h
              have := ih hr'
              refine ⟨fun m hm => ?_, fun k hk => ?_⟩
              · rcases List.mem_append.1 hm with hm | hm
                · exact hseq m hm
                · obtain ⟨p, hp, hm'⟩ := this.1 m hm
                  exact ⟨p, by simp [hp], hm'⟩
              · simp only [Option.map_eq_some_iff] at hk
                obtain ⟨k', hk', rfl⟩ := hk
                have := this.2 k' hk'
                simp only [List.length_cons]
                omega

theorem findTexts_spec {env : CoreEnv} {cfg : CoreCfg} {isSub : Bool} {text : CoreSeq → Str}
    {ps : List (CoreSeq × Option CoreSeq)} {ss : List Str} :
    ∀ {matched : List Nat} {r}, findTexts env cfg isSub text ps matched ss = .ok r →
    (∀ m ∈ r.1, ∃ p ∈ ps, m.seq = p.1 ∨ p.2 = some m.seq) ∧
    (∀ u ∈ r.2.2, ∀ k, u = some k → 1 ≤ k ∧ k ≤ ps.length) ∧
    (r.1 ≠ [] → r.2.2 ≠ []) := by
  induction ss with
  | nil =>
    intro matched r h
    simp only [findTexts, Except.ok.injEq] at h
    subst h
    simp
  | cons s ss ih =>
    intro matched r h
    unfold findTexts at h
    split at h
    · cases h
    · rename_i r1 h1
      split at h
      · cases h
      · rename_i f m u h2
        simp only [Except.ok.injEq] at h
        subst h
        have a := findLoop_spec h1
        have b := ih h2
        refine ⟨fun m hm => ?_, fun u hu => ?_, fun _ => by simp⟩
        · rcases List.mem_append.1 hm with hm | hm
          · exact a.1 m hm
          · exact b.1 m hm
        · rcases List.mem_cons.1 hu with rfl | hu
          · exact a.2
          · exact b.2.1 u hu

theorem findNext_spec {env : CoreEnv} {cfg : CoreCfg} {isSub : Bool} {text : CoreSeq → Str} {name : Str} {bonding : Bool}
    {ps : List (CoreSeq × Option CoreSeq)} {matched : List Nat} {v : TargetValue} {r}
    (h : findNext env cfg isSub text name bonding ps matched v = .ok r) :
    (∀ m ∈ r.1, ∃ p ∈ ps, m.seq = p.1 ∨ p.2 = some m.seq) ∧
    (∀ u ∈ r.2.2, ∀ k, u = some k → 1 ≤ k ∧ k ≤ ps.length) ∧
    (r.1 ≠ [] → r.2.2 ≠ []) := by
  cases v with
  | one s =>
    simp only [findNext] at h
    split at h
    · cases h
    · rename_i r1 h1
      simp only [Except.ok.injEq] at h
      subst h
      have a := findLoop_spec h1
      refine ⟨a.1, fun u hu => ?_, fun _ => by simp⟩
      rw [List.mem_singleton] at hu
      subst hu
      exact a.2
  | many ss =>
    simp only [findNext] at h
    split at h
    · cases h
    · rename_i f m u h1
      simp only [Except.ok.injEq] at h
      subst h
      have a := findTexts_spec h1
      refine ⟨fun m hm => ?_, a.2.1, fun hne => a.2.2 ?_⟩
      · split at hm
        · exact a.1 m hm
        · cases hm
      · simp only at hne
        split at hne
        · exact hne
        · exact absurd rfl hne

theorem mem_pairUp {cs ns : List CoreSeq} {p : CoreSeq × Option CoreSeq} (h : p ∈ pairUp cs ns) :
    p.1 ∈ cs ∧ ∀ n, p.2 = some n → n ∈ ns := by
  induction cs generalizing ns with
  | nil => cases h
  | cons c cs ih =>
    unfold pairUp at h
    rcases List.mem_cons.1 h with rfl | h
    · exact ⟨by simp, fun n hn => List.mem_of_mem_head? hn⟩
    · have := ih h
      exact ⟨by simp [this.1], fun n hn => List.mem_of_mem_tail (this.2 n hn)⟩

theorem pairUp_length (cs ns : List CoreSeq) : (pairUp cs ns).length = cs.length := by
  induction cs generalizing ns with
  | nil => rfl
  | cons c cs ih => simp [pairUp, ih]

theorem mem_coreSubSeqs {d : Doc} {s x : CoreSeq} (h : x ∈ coreSubSeqs d s) : ∀ i ∈ x.tokens, i ∈ s.tokens := by
  unfold coreSubSeqs at h
  obtain ⟨ts, hts, rfl⟩ := List.mem_map.1 h
  intro i hi
  have hm : i ∈ (untaggedSubSequences d s.tokens).flatten := List.mem_flatten.2 ⟨ts, hts, hi⟩
  rw [untaggedSub_flatten] at hm
  exact (List.mem_filter.1 hm).1

/-! ### Setting tags -/

theorem subTagLoop_spec (cfg : CoreCfg) (name : Str) (hn : name ≠ []) (is : List Nat) :
    ∀ (d : Doc) (first : Bool), SameBut d (subTagLoop cfg name d first is) ∧
      (∀ j, (subTagLoop cfg name d first is).getTag j = d.getTag j) ∧
      (∀ j, (subTagLoop cfg name d first is).getSubTag j = d.getSubTag j ∨
        (j ∈ is ∧ ∃ f, (subTagLoop cfg name d first is).getSubTag j = newTag cfg.useBeginPrefix f name)) := by
  induction is with
  | nil => intro d first; exact ⟨SameBut.refl d, fun j => rfl, fun j => Or.inl rfl⟩
  | cons i is ih =>
    intro d first
    unfold subTagLoop
    have := ih (d.setSubTag i (addTagPrefix (some name) (corePrefix cfg first))) false
    refine ⟨(sameBut_setTag d i _ _ _).trans this.1, fun j => ?_, fun j => ?_⟩
    · rw [this.2.1, getTag_setSubTag]
    · rcases this.2.2 j with h | ⟨h1, f, h2⟩
      · rw [h, getSubTag_setSubTag]
        by_cases hj : j = i
        · rw [if_pos hj]
          exact Or.inr ⟨by simp [hj], first, addTagPrefix_new cfg first name hn⟩
        · rw [if_neg hj]; exact Or.inl rfl
      · exact Or.inr ⟨by simp [h1], f, h2⟩

theorem applySubs_spec {env : CoreEnv} {cfg : CoreCfg} {seq : CoreSeq} {subs : List CoreSub}
    (hn : ∀ s ∈ subs, s.name ≠ []) :
    ∀ {d d' : Doc} {matched : List Nat}, applySubs env cfg seq d matched subs = .ok d' →
    SameBut d d' ∧ (∀ j, d'.getTag j = d.getTag j) ∧
    (∀ j, d'.getSubTag j = d.getSubTag j ∨
      (j ∈ seq.tokens ∧ ∃ s ∈ subs, ∃ f, d'.getSubTag j = newTag cfg.useBeginPrefix f s.name)) := by
  induction subs with
  | nil =>
    intro d d' matched h
    simp only [applySubs, Except.ok.injEq] at h
    subst h
    exact ⟨SameBut.refl d, fun j => rfl, fun j => Or.inl rfl⟩
  | cons s ss ih =>
    intro d d' matched h
    unfold applySubs at h
    split at h
    · cases h
    · rename_i found matched' used hf
      have hseq : ∀ m ∈ found, m.seq = seq := by
        intro m hm
        obtain ⟨p, hp, h1⟩ := (findNext_spec hf).1 m hm
        rw [List.mem_singleton] at hp
        subst hp
        rcases h1 with h1 | h1
        · exact h1
        · cases h1
      have a := subTagLoop_spec cfg s.name (hn s (by simp))
        (found.flatMap (fun m => coreTokensBetween env (normaliseStr env.lower) d m.range2 m.seq)) d true
      have b := ih (fun s hs => hn s (by simp [hs])) h
      refine ⟨a.1.trans b.1, fun j => (b.2.1 j).trans (a.2.1 j), fun j => ?_⟩
      rcases b.2.2 j with h1 | ⟨h1, s', hs', h2⟩
      · rcases a.2.2 j with h3 | ⟨h3, f, h4⟩
        · exact Or.inl (h1.trans h3)
        · refine Or.inr ⟨?_, s, by simp, f, h1.trans h4⟩
          obtain ⟨m, hm, hj⟩ := List.mem_flatMap.1 h3
          rw [← hseq m hm]
          exact mem_coreTokensBetween hj
      · exact Or.inr ⟨h1, s', by simp [hs'], h2⟩

/-- What has happened to a document while matches of `t` are applied: `all` are the tokens tagged, among the
tokens `done`. -/
structure Applied (cfg : CoreCfg) (t : CoreTarget) (d0 d : Doc) (all done : List Nat) : Prop where
  same : SameBut d0 d
  mem : ∀ j, j ∈ all ↔ j ∈ done ∧ truthy (d0.getTag j) = false
  head : all.head? = done.find? (fun j => !truthy (d0.getTag j))
  tag : ∀ j ∈ all, d.getTag j = newTag cfg.useBeginPrefix (decide (all.head? = some j)) t.name
  sub : ∀ j ∈ all, d.getSubTag j = d0.getSubTag j ∨
    ∃ s ∈ t.subs, ∃ f, d.getSubTag j = newTag cfg.useBeginPrefix f s.name
  other : ∀ j, j ∉ all → d.getTag j = d0.getTag j ∧ d.getSubTag j = d0.getSubTag j

theorem Applied.start (cfg : CoreCfg) (t : CoreTarget) (d : Doc) : Applied cfg t d d [] [] :=
  ⟨SameBut.refl d, by simp, rfl, by simp, by simp, fun _ _ => ⟨rfl, rfl⟩⟩

theorem tagLoop_applied {cfg : CoreCfg} {t : CoreTarget} (hn : t.name ≠ []) {d0 : Doc} (is : List Nat) :
    ∀ {d : Doc} {all done : List Nat}, Applied cfg t d0 d all done →
    Applied cfg t d0 (tagLoop cfg t.name (d, all) is).1 (tagLoop cfg t.name (d, all) is).2 (done ++ is) := by
  induction is with
  | nil => intro d all done h; simpa [tagLoop] using h
  | cons i is ih =>
    intro d all done h
    have happ : done ++ i :: is = (done ++ [i]) ++ is := by simp
    rw [happ]
    unfold tagLoop
    by_cases hi : truthy (d.getTag i) = true
    · rw [if_pos hi]
      apply ih
      have hcase : i ∈ all ∨ truthy (d0.getTag i) = true := by
        by_cases hm : i ∈ all
        · exact Or.inl hm
        · rw [(h.other i hm).1] at hi
          exact Or.inr hi
      refine ⟨h.same, fun j => ?_, ?_, h.tag, h.sub, h.other⟩
      · rw [List.mem_append, List.mem_singleton, h.mem j]
        constructor
        · rintro ⟨h1, h2⟩; exact ⟨Or.inl h1, h2⟩
        · rintro ⟨h1 | rfl, h2⟩
          · exact ⟨h1, h2⟩
          · rcases hcase with hc | hc
            · exact (h.mem j).1 hc
            · rw [h2] at hc; cases hc
      · rw [List.find?_append, h.head]
        rcases hcase with hc | hc
        · cases hf : done.find? (fun j => !truthy (d0.getTag j)) with
          | some x => simp
          | none =>
            have := List.find?_eq_none.1 hf i ((h.mem i).1 hc).1
            rw [((h.mem i).1 hc).2] at this
            simp at this
        · simp [hc]
    · rw [if_neg hi]
      have hi' : truthy (d.getTag i) = false := by simpa using hi
      have hia : i ∉ all := by
        intro hm
        rw [h.tag i hm, truthy_newTag _ _ _ hn] at hi'
        cases hi'
      have hi0 : truthy (d0.getTag i) = false := by rw [← (h.other i hia).1]; exact hi'
      apply ih
      refine ⟨h.same.trans (sameBut_setTag d i _ none none), fun j => ?_, ?_, ?_, ?_, ?_⟩
      · simp only [List.mem_append, List.mem_singleton, h.mem j]
        constructor
        · rintro (⟨h1, h2⟩ | rfl)
          · exact ⟨Or.inl h1, h2⟩
          · exact ⟨Or.inr rfl, hi0⟩
        · rintro ⟨h1 | rfl, h2⟩
          · exact Or.inl ⟨h1, h2⟩
          · exact Or.inr rfl
      · rw [List.find?_append, List.head?_append, h.head]
        simp [hi0]
      · intro j hj
        rw [getTag_setTag]
        by_cases hji : j = i
        · subst hji
          rw [if_pos rfl, addTagPrefix_new cfg _ _ hn]
          cases all with
          | nil => simp
          | cons a all =>
            have : a ≠ j := by rintro rfl; exact hia (by simp)
            simp [this]
        · rw [if_neg hji]
          have hja : j ∈ all := by
            rcases List.mem_append.1 hj with h1 | h1
            · exact h1
            · exact absurd (List.mem_singleton.1 h1) hji
          rw [h.tag j hja]
          cases all with
          | nil => cases hja
          | cons a all => simp
      · intro j hj
        rw [getSubTag_setTag]
        by_cases hja : j ∈ all
        · exact h.sub j hja
        · exact Or.inl (h.other j hja).2
      · intro j hj
        have h1 : j ∉ all := fun hm => hj (by simp [hm])
        have h2 : j ≠ i := fun hm => hj (by simp [hm])
        rw [getTag_setTag, if_neg h2, getSubTag_setTag]
        exact h.other j h1

theorem applySubs_applied {env : CoreEnv} {cfg : CoreCfg} {t : CoreTarget} (hs : ∀ s ∈ t.subs, s.name ≠ []) {d0 d d' : Doc}
    {all done : List Nat} {matched : List Nat} {p : Nat} (h : Applied cfg t d0 d all done)
    (ha : applySubs env cfg ⟨all, p⟩ d matched t.subs = .ok d') : Applied cfg t d0 d' all done := by
  have a := applySubs_spec hs ha
  refine ⟨h.same.trans a.1, h.mem, h.head, fun j hj => ?_, fun j hj => ?_, fun j hj => ?_⟩
  · rw [a.2.1]; exact h.tag j hj
  · rcases a.2.2 j with h1 | ⟨_, h1⟩
    · rw [h1]; exact h.sub j hj
    · exact Or.inr h1
  · rcases a.2.2 j with h1 | ⟨h1, _⟩
    · rw [a.2.1, h1]; exact h.other j hj
    · exact absurd h1 hj

theorem applyMatches_applied {env : CoreEnv} {cfg : CoreCfg} {t : CoreTarget} (hn : t.name ≠ [])
    (hs : ∀ s ∈ t.subs, s.name ≠ []) {d0 : Doc} (ms : List SeqMatch) :
    ∀ {d d' : Doc} {all done : List Nat}, Applied cfg t d0 d all done →
    applyMatches env cfg t (d, all) ms = .ok d' →
    ∃ all', Applied cfg t d0 d' all' (done ++ matchTokens env d0 ms) := by
  induction ms with
  | nil =>
    intro d d' all done h ha
    simp only [applyMatches, Except.ok.injEq] at ha
    subst ha
    exact ⟨all, by simpa [matchTokens] using h⟩
  | cons m ms ih =>
    intro d d' all done h ha
    have htok : coreTokensBetween env (coreNormalise env) d m.range2 m.seq =
        tokensIn (fun i => coreNormalise env (d0.getText env.cc i)) m.seq.tokens m.range2 := by
      rw [coreTokensBetween_sameBut h.same, coreTokensBetween_eq]
    have hstep := tagLoop_applied hn (coreTokensBetween env (coreNormalise env) d m.range2 m.seq) h
    have happ : done ++ matchTokens env d0 (m :: ms) =
        (done ++ coreTokensBetween env (coreNormalise env) d m.range2 m.seq) ++ matchTokens env d0 ms := by
      rw [htok]
      simp [matchTokens]
    rw [happ]
    unfold applyMatches at ha
    simp only at ha
    split at ha
    · exact ih hstep ha
    · split at ha
      · cases ha
      · rename_i d1 h1
        exact ih (applySubs_applied hs hstep h1) ha

end Verif
