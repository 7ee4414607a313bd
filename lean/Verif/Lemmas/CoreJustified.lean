/-
Lemmas about the matches of the annotator comparing values with lines.
-/
import Verif.Spec.CoreJustified
import Verif.Lemmas.CoreFind

namespace Verif

open Spec (newTag tokensIn untaggedLines LineInValue ValueInLine GoodEnough PartFound LineFound Before joined goOn PartOfLine textsOf
  CoreFoundAt CoreSubFoundAt comparison withFollowing)

theorem check_iff (f : CoreFilter) (r : FuzzyResult) (behind : Option FuzzyResult) (earlier : Bool) :
    f.check r behind earlier = true ↔ GoodEnough f r behind earlier := by
  unfold CoreFilter.check GoodEnough
  cases behind <;> cases earlier <;> simp

theorem choiceStr_map (text : CoreSeq → Str) (cur : Str) (next : Option CoreSeq) :
    choiceStr cur (next.map (fun n => (n, text n))) = withFollowing cur (next.map text) := by
  cases next <;> rfl

/-- What is known of the state of the search for a value. -/
def StateOk (env : CoreEnv) (f : CoreFilter) (text : Nat → Str) (Line : List Nat → Prop) (value : Str) (st : FindState) : Prop :=
  Before env.cc value (fun v => ∃ line r, PartFound env f text Line value line r v) st.start st.previous

theorem regularStep_found {env : CoreEnv} {cfg : CoreCfg} {text : Nat → Str} {Line : List Nat → Prop} {value : Str} {st : FindState}
    {choice : CoreSeq} {next : Option CoreSeq} {r : ChoiceResult} (hst : StateOk env cfg.seqFilter text Line value st)
    (hl : Line choice.tokens) (hn : ∀ n, next = some n → Line n.tokens)
    (hfit : ¬ value.length - st.start < (joined text choice.tokens).length)
    (h : regularStep env cfg value st choice (joined text choice.tokens) (next.map (fun n => (n, joined text n.tokens))) = .ok r) :
    (∀ m ∈ r.found, PartFound env cfg.seqFilter text Line value m.seq.tokens m.range2 m.range1) ∧
    (r.last = false → StateOk env cfg.seqFilter text Line value r.state) := by
  unfold regularStep at h
  simp only at h
  rw [choiceStr_map (fun n => joined text n.tokens)] at h
  rw [show coreFuzzyMatch env value (withFollowing (joined text choice.tokens) (next.map (fun n => joined text n.tokens))) =
    comparison env value (withFollowing (joined text choice.tokens) (next.map (fun n => joined text n.tokens))) from rfl] at h
  split at h
  · next hc =>
    obtain ⟨on, after, hp⟩ : ∃ on after, (comparison env value (withFollowing (joined text choice.tokens)
        (next.map (fun n => joined text n.tokens)))).bSplitAt env.cc (joined text choice.tokens).length = (on, after) := ⟨_, _, rfl⟩
    rw [hp] at h hc
    simp only [Bool.and_eq_true, Bool.or_eq_true, check_iff, decide_eq_true_eq] at hc
    have hin : LineInValue env cfg.seqFilter value st.start st.previous (joined text choice.tokens)
        (next.map (fun n => joined text n.tokens)) on after := ⟨Nat.not_lt.1 hfit, hp, hc.1, hc.2⟩
    have h1 : PartFound env cfg.seqFilter text Line value choice.tokens on.bRange on.aRange := by
      obtain ⟨start, previous, matched⟩ := st
      have hmap : next.map (fun n => joined text n.tokens) = (next.map CoreSeq.tokens).map (joined text) := by
        cases next <;> rfl
      have hn' : ∀ n, next.map CoreSeq.tokens = some n → Line n := by
        intro n he
        cases next with
        | none => cases he
        | some x => cases he; exact hn x rfl
      rw [hmap] at hin
      rcases hst with _ | ⟨v, line, r0, hv⟩
      · exact .first hl hn' hin
      · exact .more hv hl hn' hin
    split at h
    · next ha =>
      cases next with
      | none => cases h
      | some n =>
        obtain rfl := Except.ok.inj h
        have h2 : PartFound env cfg.seqFilter text Line value n.tokens after.bRange after.aRange := by
          obtain ⟨start, previous, matched⟩ := st
          rcases hst with _ | ⟨v, line, r0, hv⟩
          · exact .firstNext hl (hn n rfl) hin ha
          · exact .moreNext hv hl (hn n rfl) hin ha
        constructor
        · intro m hm
          simp only [List.mem_cons, List.not_mem_nil, or_false] at hm
          rcases hm with rfl | rfl
          · exact h1
          · exact h2
        · intro hlast
          have hlast := of_decide_eq_false hlast
          show Before _ _ _ (if _ then _ else _) true
          rw [if_neg hlast]
          exact .range after.aRange ⟨_, _, h2⟩
    · obtain rfl := Except.ok.inj h
      constructor
      · intro m hm
        obtain rfl := List.mem_singleton.1 hm
        exact h1
      · intro hlast
        have hlast := of_decide_eq_false hlast
        show Before _ _ _ (if _ then _ else _) true
        rw [if_neg hlast]
        exact .range on.aRange ⟨_, _, h1⟩
  · obtain rfl := Except.ok.inj h
    exact ⟨fun m hm => (by cases hm), fun _ => hst⟩

/-- What a match of the rest of the value gives. -/
theorem shortStep_cases {env : CoreEnv} {cfg : CoreCfg} {text : Nat → Str} {value : Str} {st : FindState}
    {choice : CoreSeq} {next : Option CoreSeq} {r : ChoiceResult}
    (h : shortStep env cfg value st choice (joined text choice.tokens) (next.map (fun n => (n, joined text n.tokens))) = .ok r) :
    (r.found = [] ∧ r.state = st ∧ r.last = false) ∨ (r.last = true ∧
      ∃ on after, ValueInLine env cfg.choiceFilter value st.start st.previous (joined text choice.tokens)
        (next.map (fun n => joined text n.tokens)) on after ∧
      ∀ m ∈ r.found, (m.seq = choice ∧ m.range2 = on.aRange) ∨
        (∃ n, next = some n ∧ after.hasMatch = true ∧ m.seq = n ∧ m.range2 = after.aRange)) := by
  unfold shortStep at h
  simp only at h
  rw [choiceStr_map (fun n => joined text n.tokens)] at h
  rw [show coreFuzzyMatch env (withFollowing (joined text choice.tokens) (next.map (fun n => joined text n.tokens))) (value.drop st.start) =
    comparison env (withFollowing (joined text choice.tokens) (next.map (fun n => joined text n.tokens))) (value.drop st.start) from rfl] at h
  split at h
  · next hc =>
    obtain ⟨on, after, hp⟩ : ∃ on after, (comparison env (withFollowing (joined text choice.tokens)
        (next.map (fun n => joined text n.tokens))) (value.drop st.start)).aSplitAt env.cc (joined text choice.tokens).length =
          (on, after) := ⟨_, _, rfl⟩
    rw [hp] at h hc
    simp only [Bool.and_eq_true, Bool.or_eq_true, check_iff, decide_eq_true_eq] at hc
    have hin : ValueInLine env cfg.choiceFilter value st.start st.previous (joined text choice.tokens)
        (next.map (fun n => joined text n.tokens)) on after := ⟨hp, hc.1, hc.2⟩
    right
    split at h
    · next ha =>
      cases next with
      | none => cases h
      | some n =>
        obtain rfl := Except.ok.inj h
        refine ⟨rfl, on, after, hin, fun m hm => ?_⟩
        simp only [List.mem_cons, List.not_mem_nil, or_false] at hm
        rcases hm with rfl | rfl
        · exact .inl ⟨rfl, rfl⟩
        · exact .inr ⟨n, rfl, ha, rfl, rfl⟩
    · obtain rfl := Except.ok.inj h
      refine ⟨rfl, on, after, hin, fun m hm => ?_⟩
      obtain rfl := List.mem_singleton.1 hm
      exact .inl ⟨rfl, rfl⟩
  · obtain rfl := Except.ok.inj h
    exact .inl ⟨rfl, rfl, rfl⟩

theorem choiceStep_found {env : CoreEnv} {cfg : CoreCfg} {text : Nat → Str} {Line : List Nat → Prop} {value : Str} {st : FindState}
    {choice : CoreSeq} {next : Option CoreSeq} {r : ChoiceResult} (hst : StateOk env cfg.seqFilter text Line value st)
    (hl : Line choice.tokens) (hn : ∀ n, next = some n → Line n.tokens)
    (h : choiceStep env cfg false value st choice (joined text choice.tokens) (next.map (fun n => (n, joined text n.tokens))) = .ok r) :
    (∀ m ∈ r.found, LineFound env cfg text Line value m.seq.tokens m.range2) ∧
    (r.last = false → StateOk env cfg.seqFilter text Line value r.state) := by
  unfold choiceStep at h
  rw [Bool.false_or] at h
  split at h
  · next hlong =>
    have hlong := of_decide_eq_true hlong
    rcases shortStep_cases h with ⟨h1, h2, _⟩ | ⟨h1, on, after, h2, h3⟩
    · rw [h1, h2]
      exact ⟨fun m hm => (by cases hm), fun _ => hst⟩
    · refine ⟨fun m hm => ?_, fun h0 => by rw [h1] at h0; cases h0⟩
      rcases h3 m hm with ⟨e1, e2⟩ | ⟨n, e0, ha, e1, e2⟩
      · rw [e1, e2]
        have hmap : next.map (fun n => joined text n.tokens) = (next.map CoreSeq.tokens).map (joined text) := by
          cases next <;> rfl
        rw [hmap] at h2
        refine .rest hst hl ?_ hlong h2
        intro n he
        cases next with
        | none => cases he
        | some x => cases he; exact hn x rfl
      · subst e0
        rw [e1, e2]
        exact .restNext hst hl (hn n rfl) hlong h2 ha
  · next hlong =>
    have := regularStep_found hst hl hn (by simpa using hlong) h
    exact ⟨fun m hm => .part (this.1 m hm), this.2⟩

theorem findLoop_found {env : CoreEnv} {cfg : CoreCfg} {text : Nat → Str} {Line : List Nat → Prop} {value : Str}
    (ps : List (CoreSeq × Option CoreSeq)) :
    ∀ {st : FindState} {r : FindResult}, StateOk env cfg.seqFilter text Line value st →
    (∀ p ∈ ps, Line p.1.tokens ∧ ∀ n, p.2 = some n → Line n.tokens) →
    findLoop env cfg false (fun s => joined text s.tokens) value st ps = .ok r →
    ∀ m ∈ r.found, LineFound env cfg text Line value m.seq.tokens m.range2 := by
  induction ps with
  | nil =>
    intro st r _ _ h
    obtain rfl := Except.ok.inj h
    intro m hm
    cases hm
  | cons p ps ih =>
    obtain ⟨choice, next⟩ := p
    intro st r hst hps h
    have hps' := fun p hp => hps p (List.mem_cons_of_mem _ hp)
    unfold findLoop at h
    split at h
    · split at h
      · cases h
      · next r' hr =>
        obtain rfl := Except.ok.inj h
        intro m hm
        exact ih hst hps' hr m hm
    · split at h
      · obtain rfl := Except.ok.inj h
        intro m hm
        cases hm
      · split at h
        · cases h
        · next rc hrc =>
          have a := choiceStep_found hst (hps _ List.mem_cons_self).1 (hps _ List.mem_cons_self).2 hrc
          split at h
          · obtain rfl := Except.ok.inj h
            exact a.1
          · next hlast =>
            split at h
            · cases h
            · next r' hr =>
              obtain rfl := Except.ok.inj h
              intro m hm
              rcases List.mem_append.1 hm with hm | hm
              · exact a.1 m hm
              · exact ih (a.2 (by simpa using hlast)) hps' hr m hm

theorem findTexts_found {env : CoreEnv} {cfg : CoreCfg} {text : Nat → Str} {Line : List Nat → Prop}
    {ps : List (CoreSeq × Option CoreSeq)} (hps : ∀ p ∈ ps, Line p.1.tokens ∧ ∀ n, p.2 = some n → Line n.tokens) (ss : List Str) :
    ∀ {matched : List Nat} {r}, findTexts env cfg false (fun s => joined text s.tokens) ps matched ss = .ok r →
    ∀ m ∈ r.1, ∃ v ∈ ss, LineFound env cfg text Line v m.seq.tokens m.range2 := by
  induction ss with
  | nil =>
    intro matched r h
    obtain rfl := Except.ok.inj h
    intro m hm
    cases hm
  | cons s ss ih =>
    intro matched r h
    unfold findTexts at h
    split at h
    · cases h
    · next r1 h1 =>
      split at h
      · cases h
      · next h2 =>
        obtain rfl := Except.ok.inj h
        intro m hm
        rcases List.mem_append.1 hm with hm | hm
        · exact ⟨s, by simp, findLoop_found ps (st := ⟨0, false, _⟩) Before.nothing hps h1 m hm⟩
        · obtain ⟨v, hv, h3⟩ := ih h2 m hm
          exact ⟨v, by simp [hv], h3⟩

theorem textsOf_map (f : Str → Str) (v : TargetValue) : textsOf (v.map f) = (textsOf v).map f := by cases v <;> rfl

theorem findNext_found {env : CoreEnv} {cfg : CoreCfg} {text : Nat → Str} {Line : List Nat → Prop} {name : Str} {bonding : Bool}
    {ps : List (CoreSeq × Option CoreSeq)} (hps : ∀ p ∈ ps, Line p.1.tokens ∧ ∀ n, p.2 = some n → Line n.tokens) {matched : List Nat}
    {v : TargetValue} {r} (h : findNext env cfg false (fun s => joined text s.tokens) name bonding ps matched v = .ok r) :
    ∀ m ∈ r.1, ∃ s ∈ textsOf v, LineFound env cfg text Line s m.seq.tokens m.range2 := by
  cases v with
  | one s =>
    simp only [findNext] at h
    split at h
    · cases h
    · next h1 =>
      obtain rfl := Except.ok.inj h
      intro m hm
      exact ⟨s, List.mem_cons_self, findLoop_found ps (st := ⟨0, false, _⟩) Before.nothing hps h1 m hm⟩
  | many ss =>
    simp only [findNext] at h
    split at h
    · cases h
    · next h1 =>
      obtain rfl := Except.ok.inj h
      intro m hm
      simp only at hm
      split at hm
      · exact findTexts_found hps ss h1 m hm
      · cases hm

/-! ### Sub annotations -/

theorem findLoop_sub {env : CoreEnv} {cfg : CoreCfg} {text : Nat → Str} {value : Str} {seq : CoreSeq} {matched : List Nat} {r : FindResult}
    (h : findLoop env cfg true (fun s => joined text s.tokens) value ⟨0, false, matched⟩ [(seq, none)] = .ok r) :
    ∀ m ∈ r.found, m.seq = seq ∧ ∃ on after,
      ValueInLine env cfg.choiceFilter value 0 false (joined text seq.tokens) none on after ∧ m.range2 = on.aRange := by
  unfold findLoop at h
  split at h
  · unfold findLoop at h
    obtain rfl := Except.ok.inj h
    intro m hm
    cases hm
  · split at h
    · obtain rfl := Except.ok.inj h
      intro m hm
      cases hm
    · split at h
      · cases h
      · next rc hrc =>
        have key : ∀ m ∈ rc.found, m.seq = seq ∧ ∃ on after,
            ValueInLine env cfg.choiceFilter value 0 false (joined text seq.tokens) none on after ∧ m.range2 = on.aRange := by
          unfold choiceStep at hrc
          rw [Bool.true_or, if_pos rfl] at hrc
          rcases shortStep_cases (text := text) (next := none) hrc with ⟨h1, _, _⟩ | ⟨_, on, after, h2, h3⟩
          · rw [h1]
            intro m hm
            cases hm
          · intro m hm
            rcases h3 m hm with ⟨e1, e2⟩ | ⟨n, e0, _⟩
            · exact ⟨e1, on, after, h2, e2⟩
            · cases e0
        split at h
        · obtain rfl := Except.ok.inj h
          exact key
        · unfold findLoop at h
          obtain rfl := Except.ok.inj h
          intro m hm
          rw [List.append_nil] at hm
          exact key m hm

theorem findTexts_sub {env : CoreEnv} {cfg : CoreCfg} {text : Nat → Str} {seq : CoreSeq} (ss : List Str) :
    ∀ {matched : List Nat} {r}, findTexts env cfg true (fun s => joined text s.tokens) [(seq, none)] matched ss = .ok r →
    ∀ m ∈ r.1, m.seq = seq ∧ ∃ v ∈ ss, ∃ on after,
      ValueInLine env cfg.choiceFilter v 0 false (joined text seq.tokens) none on after ∧ m.range2 = on.aRange := by
  induction ss with
  | nil =>
    intro matched r h
    obtain rfl := Except.ok.inj h
    intro m hm
    cases hm
  | cons s ss ih =>
    intro matched r h
    unfold findTexts at h
    split at h
    · cases h
    · next r1 h1 =>
      split at h
      · cases h
      · next h2 =>
        obtain rfl := Except.ok.inj h
        intro m hm
        rcases List.mem_append.1 hm with hm | hm
        · have := findLoop_sub h1 m hm
          exact ⟨this.1, s, by simp, this.2⟩
        · obtain ⟨h0, v, hv, h3⟩ := ih h2 m hm
          exact ⟨h0, v, by simp [hv], h3⟩

theorem findNext_sub {env : CoreEnv} {cfg : CoreCfg} {text : Nat → Str} {name : Str} {bonding : Bool} {seq : CoreSeq}
    {matched : List Nat} {v : TargetValue} {r}
    (h : findNext env cfg true (fun s => joined text s.tokens) name bonding [(seq, none)] matched v = .ok r) :
    ∀ m ∈ r.1, m.seq = seq ∧ ∃ s ∈ textsOf v, ∃ on after,
      ValueInLine env cfg.choiceFilter s 0 false (joined text seq.tokens) none on after ∧ m.range2 = on.aRange := by
  cases v with
  | one s =>
    simp only [findNext] at h
    split at h
    · cases h
    · next h1 =>
      obtain rfl := Except.ok.inj h
      intro m hm
      have := findLoop_sub h1 m hm
      exact ⟨this.1, s, List.mem_cons_self, this.2⟩
  | many ss =>
    simp only [findNext] at h
    split at h
    · cases h
    · next h1 =>
      obtain rfl := Except.ok.inj h
      intro m hm
      simp only at hm
      split at hm
      · exact findTexts_sub ss h1 m hm
      · cases hm

/-! ### The tags of a document -/

/-- What has happened to a document: each change is justified by a target annotation found there. -/
structure CoreJustified (env : CoreEnv) (cfg : CoreCfg) (T : List CoreTarget) (d0 d : Doc) : Prop where
  same : SameBut d0 d
  each : ∀ j, (d.getTag j = d0.getTag j ∧ d.getSubTag j = d0.getSubTag j) ∨
    (truthy (d0.getTag j) = false ∧ ∃ t ∈ T, CoreFoundAt env cfg d0 t j ∧
      (∃ f, d.getTag j = newTag cfg.useBeginPrefix f t.name) ∧
      (d.getSubTag j = d0.getSubTag j ∨ ∃ s ∈ t.subs, CoreSubFoundAt env cfg d0 t s j ∧
        ∃ f, d.getSubTag j = newTag cfg.useBeginPrefix f s.name))

/-- What is known of the tokens tagged for the matches of `t` so far. -/
def TaggedFor (env : CoreEnv) (cfg : CoreCfg) (t : CoreTarget) (d0 d : Doc) (all : List Nat) : Prop :=
  ∀ j ∈ all, truthy (d0.getTag j) = false ∧ CoreFoundAt env cfg d0 t j ∧ ∃ f, d.getTag j = newTag cfg.useBeginPrefix f t.name

theorem tagLoop_justified {env : CoreEnv} {cfg : CoreCfg} {T : List CoreTarget} (hn : ∀ t ∈ T, t.name ≠ []) {t : CoreTarget} (ht : t ∈ T)
    {d0 : Doc} (is : List Nat) :
    ∀ {d : Doc} {all : List Nat}, (∀ i ∈ is, CoreFoundAt env cfg d0 t i) → CoreJustified env cfg T d0 d → TaggedFor env cfg t d0 d all →
    CoreJustified env cfg T d0 (tagLoop cfg t.name (d, all) is).1 ∧
    TaggedFor env cfg t d0 (tagLoop cfg t.name (d, all) is).1 (tagLoop cfg t.name (d, all) is).2 := by
  induction is with
  | nil => intro d all _ h ha; exact ⟨h, ha⟩
  | cons i is ih =>
    intro d all hf h ha
    have hf' := fun j hj => hf j (List.mem_cons_of_mem _ hj)
    unfold tagLoop
    split
    · exact ih hf' h ha
    · next hi =>
      have hi : truthy (d.getTag i) = false := by simpa using hi
      have h0 : d.getTag i = d0.getTag i ∧ d.getSubTag i = d0.getSubTag i := by
        rcases h.each i with h0 | ⟨_, t', ht', _, ⟨f, e⟩, _⟩
        · exact h0
        · rw [e, truthy_newTag _ _ _ (hn t' ht')] at hi
          cases hi
      have hi0 : truthy (d0.getTag i) = false := by rw [← h0.1]; exact hi
      apply ih hf'
      · refine ⟨h.same.trans (sameBut_setTag d i _ none none), fun j => ?_⟩
        rw [getTag_setTag, getSubTag_setTag]
        by_cases hj : j = i
        · subst hj
          rw [if_pos rfl]
          refine .inr ⟨hi0, t, ht, hf j List.mem_cons_self, ⟨_, addTagPrefix_new cfg _ _ (hn t ht)⟩, .inl h0.2⟩
        · rw [if_neg hj]
          exact h.each j
      · intro j hj
        rw [getTag_setTag]
        by_cases hji : j = i
        · subst hji
          rw [if_pos rfl]
          exact ⟨hi0, hf j List.mem_cons_self, _, addTagPrefix_new cfg _ _ (hn t ht)⟩
        · rw [if_neg hji]
          rcases List.mem_append.1 hj with hj | hj
          · exact ha j hj
          · exact absurd (List.mem_singleton.1 hj) hji

theorem subTagLoop_justified {env : CoreEnv} {cfg : CoreCfg} {T : List CoreTarget} {t : CoreTarget} (ht : t ∈ T)
    {s : CoreSub} (hs : s ∈ t.subs) (hsn : s.name ≠ []) {d0 : Doc} {all : List Nat} (is : List Nat) :
    ∀ {d : Doc} {first : Bool}, (∀ i ∈ is, i ∈ all ∧ CoreSubFoundAt env cfg d0 t s i) →
    CoreJustified env cfg T d0 d → TaggedFor env cfg t d0 d all →
    CoreJustified env cfg T d0 (subTagLoop cfg s.name d first is) ∧ TaggedFor env cfg t d0 (subTagLoop cfg s.name d first is) all := by
  induction is with
  | nil => intro d first _ h ha; exact ⟨h, ha⟩
  | cons i is ih =>
    intro d first hf h ha
    unfold subTagLoop
    apply ih (fun j hj => hf j (List.mem_cons_of_mem _ hj))
    · refine ⟨h.same.trans (sameBut_setTag d i _ _ _), fun j => ?_⟩
      rw [getTag_setSubTag, getSubTag_setSubTag]
      by_cases hj : j = i
      · subst hj
        rw [if_pos rfl]
        have hi := hf j List.mem_cons_self
        have := ha j hi.1
        exact .inr ⟨this.1, t, ht, this.2.1, this.2.2, .inr ⟨s, hs, hi.2, _, addTagPrefix_new cfg _ _ hsn⟩⟩
      · rw [if_neg hj]
        exact h.each j
    · intro j hj
      rw [getTag_setSubTag]
      exact ha j hj

theorem applySubs_justified {env : CoreEnv} {cfg : CoreCfg} {T : List CoreTarget} {t : CoreTarget} (ht : t ∈ T)
    {d0 : Doc} {all : List Nat} {p : Nat} (ss : List CoreSub) :
    ∀ {d d' : Doc} {matched : List Nat}, (∀ s ∈ ss, s ∈ t.subs ∧ s.name ≠ []) →
    CoreJustified env cfg T d0 d → TaggedFor env cfg t d0 d all →
    applySubs env cfg ⟨all, p⟩ d matched ss = .ok d' →
    CoreJustified env cfg T d0 d' ∧ TaggedFor env cfg t d0 d' all := by
  induction ss with
  | nil =>
    intro d d' matched _ h ha hr
    obtain rfl := Except.ok.inj hr
    exact ⟨h, ha⟩
  | cons s ss ih =>
    intro d d' matched hss h ha hr
    unfold applySubs at hr
    split at hr
    · cases hr
    · next found matched' used hf =>
      have hs := hss s List.mem_cons_self
      have htext : coreSeqText env (normaliseStr env.lower) d =
          fun s => joined (fun j => normaliseStr env.lower (d0.getText env.cc j)) s.tokens := by
        rw [coreSeqText_sameBut h.same]
        rfl
      rw [htext] at hf
      have hm := findNext_sub hf
      have hstep := subTagLoop_justified (first := true) ht hs.1 hs.2
        (found.flatMap (fun m => coreTokensBetween env (normaliseStr env.lower) d m.range2 m.seq)) (d := d) (by
          intro i hi
          obtain ⟨m, hmm, him⟩ := List.mem_flatMap.1 hi
          obtain ⟨e, v, hv, on, after, hin, hr2⟩ := hm m hmm
          rw [coreTokensBetween_sameBut h.same, coreTokensBetween_eq, e, hr2] at him
          rw [textsOf_map] at hv
          obtain ⟨v0, hv0, rfl⟩ := List.mem_map.1 hv
          exact ⟨(tokensIn_sublist _ _ _).mem him, all, fun j hj => (ha j hj).2.1, v0, hv0, on, after, hin, him⟩) h ha
      exact ih (fun s hs => hss s (List.mem_cons_of_mem _ hs)) hstep.1 hstep.2 hr

/-- A match of the target annotation on a line of the document as it was. -/
def MatchFor (env : CoreEnv) (cfg : CoreCfg) (d0 : Doc) (t : CoreTarget) (m : SeqMatch) : Prop :=
  ∃ v ∈ textsOf t.value,
    LineFound env cfg (fun j => coreNormalise env (d0.getText env.cc j)) (PartOfLine d0) (coreNormalise env v) m.seq.tokens m.range2

theorem applyMatches_justified {env : CoreEnv} {cfg : CoreCfg} {T : List CoreTarget} (hn : ∀ t ∈ T, t.name ≠ [])
    (hsn : ∀ t ∈ T, ∀ s ∈ t.subs, s.name ≠ []) {t : CoreTarget} (ht : t ∈ T) {d0 : Doc} (ms : List SeqMatch) :
    ∀ {d d' : Doc} {all : List Nat}, (∀ m ∈ ms, MatchFor env cfg d0 t m) →
    CoreJustified env cfg T d0 d → TaggedFor env cfg t d0 d all →
    applyMatches env cfg t (d, all) ms = .ok d' → CoreJustified env cfg T d0 d' := by
  induction ms with
  | nil =>
    intro d d' all _ h _ hr
    obtain rfl := Except.ok.inj hr
    exact h
  | cons m ms ih =>
    intro d d' all hm h ha hr
    have hm' := fun x hx => hm x (List.mem_cons_of_mem _ hx)
    have hstep := tagLoop_justified hn ht (coreTokensBetween env (coreNormalise env) d m.range2 m.seq) (d := d) (all := all) (by
      intro i hi
      obtain ⟨v, hv, hf⟩ := hm m List.mem_cons_self
      rw [coreTokensBetween_sameBut h.same, coreTokensBetween_eq] at hi
      exact ⟨v, hv, _, _, hf, hi⟩) h ha
    unfold applyMatches at hr
    simp only at hr
    split at hr
    · exact ih hm' hstep.1 hstep.2 hr
    · split at hr
      · cases hr
      · next d1 h1 =>
        have := applySubs_justified ht t.subs (fun s hs => ⟨hs, hsn t ht s hs⟩) hstep.1 hstep.2 h1
        exact ih hm' this.1 this.2 hr

/-- What is known of a conditional match. -/
def CondFor (env : CoreEnv) (cfg : CoreCfg) (T : List CoreTarget) (d0 : Doc) (c : Conditional) : Prop :=
  ∀ t ms, c = some (t, ms) → t ∈ T ∧ ∀ m ∈ ms, MatchFor env cfg d0 t m

/-- The choices are parts of lines. -/
def ChoicesOf (L : List Nat → Prop) (c : Choices) : Prop := ∀ s ∈ c.made ++ c.rest, L s.tokens

theorem untaggedLoop_infix (d : Doc) (ts : List Nat) : ∀ (u : List Nat), ∀ s ∈ untaggedLoop d u ts, ∃ a b, u ++ ts = a ++ s ++ b := by
  induction ts with
  | nil =>
    intro u s hs
    unfold untaggedLoop at hs
    split at hs
    · cases hs
    · obtain rfl := List.mem_singleton.1 hs
      exact ⟨[], [], by simp⟩
  | cons i is ih =>
    intro u s hs
    unfold untaggedLoop at hs
    split at hs
    · obtain ⟨a, b, e⟩ := ih _ s hs
      exact ⟨a, b, by rw [← e]; simp⟩
    · split at hs
      · rcases List.mem_cons.1 hs with rfl | hs
        · exact ⟨[], i :: is, by simp⟩
        · obtain ⟨a, b, e⟩ := ih _ s hs
          exact ⟨u ++ i :: a, b, by rw [List.nil_append] at e; rw [e]; simp⟩
      · obtain ⟨a, b, e⟩ := ih _ s hs
        next hu =>
        have : u = [] := by simpa using hu
        subst this
        exact ⟨i :: a, b, by rw [List.nil_append] at e ⊢; rw [e]; simp⟩

theorem partOfLine_sub {d0 d : Doc} {s x : CoreSeq} (h : PartOfLine d0 s.tokens) (hx : x ∈ coreSubSeqs d s) : PartOfLine d0 x.tokens := by
  unfold coreSubSeqs at hx
  obtain ⟨ts, hts, rfl⟩ := List.mem_map.1 hx
  obtain ⟨l, hl, a, b, e⟩ := h
  have : ∃ a' b', s.tokens = a' ++ ts ++ b' := by
    unfold untaggedSubSequences at hts
    simp only at hts
    split at hts
    · obtain rfl := List.mem_singleton.1 hts
      exact ⟨[], [], by simp⟩
    · split at hts
      · cases hts
      · exact untaggedLoop_infix d _ [] ts hts
  obtain ⟨a', b', e'⟩ := this
  exact ⟨l, hl, a ++ a', b' ++ b, by rw [e, e']; simp⟩

theorem ChoicesOf.all {d0 : Doc} {c : Choices} (h : ChoicesOf (PartOfLine d0) c) (d : Doc) : ∀ s ∈ c.all d, PartOfLine d0 s.tokens := by
  intro s hs
  unfold Choices.all at hs
  rcases List.mem_append.1 hs with hs | hs
  · exact h s (by simp [hs])
  · obtain ⟨x, hx, hs⟩ := List.mem_flatMap.1 hs
    exact partOfLine_sub (h x (by simp [hx])) hs

theorem ChoicesOf.after {d0 : Doc} {c : Choices} (h : ChoicesOf (PartOfLine d0) c) (d : Doc) (used : List (Option Nat)) :
    ChoicesOf (PartOfLine d0) (c.after d used) := by
  unfold Choices.after
  cases used with
  | nil => exact h
  | cons u us =>
    simp only
    cases hm : mostUsed (u :: us) with
    | none =>
      intro s hs
      simp only [List.append_nil] at hs
      exact h.all d s hs
    | some n =>
      simp only
      intro s hs
      obtain ⟨k, h1, h2⟩ := (drawChoices_spec d (c.nxt + n) c.rest c.made).2.2
      simp only [h1, h2] at hs
      rcases List.mem_append.1 hs with hs | hs
      · rcases List.mem_append.1 hs with hs | hs
        · exact h s (by simp [hs])
        · obtain ⟨x, hx, hs⟩ := List.mem_flatMap.1 hs
          exact partOfLine_sub (h x (by simp [List.mem_of_mem_take hx])) hs
      · exact h s (by simp [List.mem_of_mem_drop hs])

theorem annotateItems_justified {env : CoreEnv} {cfg : CoreCfg} {T : List CoreTarget} (hn : ∀ t ∈ T, t.name ≠ [])
    (hsn : ∀ t ∈ T, ∀ s ∈ t.subs, s.name ≠ []) {t : CoreTarget} (ht : t ∈ T) {d0 : Doc} (n : Nat) :
    ∀ {d : Doc} {cond : Conditional} {matched : List Nat} {c : Choices} {d' : Doc} {cond' : Conditional} {matched' : List Nat},
    CoreJustified env cfg T d0 d → CondFor env cfg T d0 cond → ChoicesOf (PartOfLine d0) c →
    annotateItems env cfg t n d cond matched c = .ok (some (d', cond', matched')) →
    CoreJustified env cfg T d0 d' ∧ CondFor env cfg T d0 cond' := by
  induction n with
  | zero =>
    intro d cond matched c d' cond' matched' _ _ _ h
    simp [annotateItems] at h
  | succ n ih =>
    intro d cond matched c d' cond' matched' hj hc hch h
    unfold annotateItems at h
    split at h
    · cases h
    · rename_i found matched1 used hf
      simp only at h
      split at h
      · simp only [Except.ok.injEq, Option.some.injEq, Prod.mk.injEq] at h
        obtain ⟨rfl, rfl, rfl⟩ := h
        exact ⟨hj, fun _ _ h => by cases h⟩
      · split at h
        · cases h
        · rename_i d1 h1
          split at h
          · cases h
          · rename_i d2 h2
            have hin : ∀ m ∈ sortBy matchLe found, MatchFor env cfg d0 t m := by
              intro m hm
              have htext : coreSeqText env (coreNormalise env) d =
                  fun s => joined (fun j => coreNormalise env (d0.getText env.cc j)) s.tokens := by
                rw [coreSeqText_sameBut hj.same]
                rfl
              rw [htext] at hf
              obtain ⟨v, hv, hf'⟩ := findNext_found (Line := PartOfLine d0) (by
                intro p hp
                have h2 := mem_pairUp hp
                exact ⟨hch.all d _ (List.mem_of_mem_drop h2.1), fun n hn => hch.all d _ (List.mem_of_mem_drop (h2.2 n hn))⟩) hf
                m ((sortBy_perm _ _).mem_iff.1 hm)
              rw [textsOf_map] at hv
              obtain ⟨v0, hv0, rfl⟩ := List.mem_map.1 hv
              exact ⟨v0, hv0, hf'⟩
            have m1 : CoreJustified env cfg T d0 d1 := by
              unfold applyConditional at h1
              split at h1
              · obtain rfl := Except.ok.inj h1
                exact hj
              · next t' ms' =>
                split at h1
                · have := hc t' ms' rfl
                  exact applyMatches_justified hn hsn this.1 ms' this.2 hj (fun _ h => by cases h) h1
                · obtain rfl := Except.ok.inj h1
                  exact hj
            have m2 : CoreJustified env cfg T d0 d2 := by
              split at h2
              · obtain rfl := Except.ok.inj h2
                exact m1
              · exact applyMatches_justified hn hsn ht _ hin m1 (fun _ h => by cases h) h2
            have hc' : CondFor env cfg T d0 (if t.requireNext then some (t, sortBy matchLe found) else cond) := by
              split
              · intro t' ms' he
                simp only [Option.some.injEq, Prod.mk.injEq] at he
                obtain ⟨rfl, rfl⟩ := he
                exact ⟨ht, hin⟩
              · exact hc
            split at h
            · exact ih m2 hc' (hch.after d used) h
            · simp only [Except.ok.injEq, Option.some.injEq, Prod.mk.injEq] at h
              obtain ⟨rfl, rfl, rfl⟩ := h
              exact ⟨m2, hc'⟩

theorem annotateTargets_justified {env : CoreEnv} {cfg : CoreCfg} {T : List CoreTarget} (hn : ∀ t ∈ T, t.name ≠ [])
    (hsn : ∀ t ∈ T, ∀ s ∈ t.subs, s.name ≠ []) {d0 : Doc} {fuel : Nat} {pending : List CoreSeq}
    (hp : ∀ s ∈ pending, PartOfLine d0 s.tokens) (ts : List CoreTarget) :
    ∀ {st st' : CoreState}, (∀ t ∈ ts, t ∈ T) → CoreJustified env cfg T d0 st.doc → CondFor env cfg T d0 st.cond →
    annotateTargets env cfg fuel pending st ts = .ok (some st') → CoreJustified env cfg T d0 st'.doc := by
  induction ts with
  | nil =>
    intro st st' _ hj _ h
    simp only [annotateTargets, Except.ok.injEq, Option.some.injEq] at h
    subst h
    exact hj
  | cons t ts ih =>
    intro st st' hts hj hc h
    unfold annotateTargets at h
    simp only at h
    split at h
    · cases h
    · simp at h
    · rename_i d cond matched' ha
      have a := annotateItems_justified hn hsn (hts t List.mem_cons_self) fuel hj hc
        (by intro s hs'; exact hp s (by simpa using hs')) ha
      exact ih (fun t ht => hts t (List.mem_cons_of_mem _ ht)) a.1 a.2 h

theorem coreAnnotate_justified {env : CoreEnv} {cfg : CoreCfg} {T : List CoreTarget} (hn : ∀ t ∈ T, t.name ≠ [])
    (hsn : ∀ t ∈ T, ∀ s ∈ t.subs, s.name ≠ []) {d d' : Doc} (h : coreAnnotate env cfg T d = .ok d') :
    CoreJustified env cfg T d d' := by
  unfold coreAnnotate at h
  simp only at h
  split at h
  · cases h
  · cases h
  · next st hst =>
    obtain rfl := Except.ok.inj h
    exact annotateTargets_justified hn hsn (fun s hs => ⟨_, mem_corePending hs, [], [], by simp⟩) T (fun _ h => h)
      ⟨SameBut.refl d, fun _ => .inl ⟨rfl, rfl⟩⟩ (fun _ _ h => by cases h) hst

end Verif
