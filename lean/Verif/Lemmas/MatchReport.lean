import Verif.Model.MatchReport

namespace Verif

theorem then_fst {α β : Type} (x : Reported α) (f : α → Reported β) :
    (x.then f).1 = (match x.1 with | .error e => .error e | .ok a => (f a).1) := by
  unfold Reported.then
  cases x.1 <;> rfl

theorem silent_fst {α : Type} (x : Except Err α) : (Reported.silent x).1 = x := rfl

theorem findLoopR_fst (env : CoreEnv) (cfg : CoreCfg) (ctx : ReportCtx) (text : CoreSeq → Str) (s1 : Str)
    (st : FindState) (ps : List (CoreSeq × Option CoreSeq)) :
    (findLoopR env cfg ctx text s1 st ps).1 = findLoop env cfg ctx.isSub text s1 st ps := by
  induction ps generalizing st with
  | nil => rfl
  | cons p ps ih =>
    obtain ⟨choice, next⟩ := p
    rw [findLoopR, findLoop]
    split
    · rw [then_fst, ih]
      cases findLoop env cfg ctx.isSub text s1 st ps <;> rfl
    · split
      · rfl
      · simp only [then_fst, silent_fst]
        cases choiceStep env cfg ctx.isSub s1 st choice (text choice) (next.map (fun n => (n, text n))) with
        | error e => rfl
        | ok r =>
          simp only
          split
          · rfl
          · rw [then_fst, ih]
            cases findLoop env cfg ctx.isSub text s1 r.state ps <;> rfl

theorem findTextsR_fst (env : CoreEnv) (cfg : CoreCfg) (ctx : ReportCtx) (text : CoreSeq → Str)
    (pairs : List (CoreSeq × Option CoreSeq)) (matched : List Nat) (ss : List Str) :
    (findTextsR env cfg ctx text pairs matched ss).1 = findTexts env cfg ctx.isSub text pairs matched ss := by
  induction ss generalizing matched with
  | nil => rfl
  | cons s ss ih =>
    rw [findTextsR, findTexts, then_fst, findLoopR_fst]
    cases findLoop env cfg ctx.isSub text s ⟨0, false, matched⟩ pairs with
    | error e => rfl
    | ok r =>
      simp only
      rw [then_fst, ih]
      cases findTexts env cfg ctx.isSub text pairs r.matched ss <;> rfl

theorem findNextR_fst (env : CoreEnv) (cfg : CoreCfg) (ctx : ReportCtx) (text : CoreSeq → Str) (bonding : Bool)
    (pairs : List (CoreSeq × Option CoreSeq)) (matched : List Nat) (v : TargetValue) :
    (findNextR env cfg ctx text bonding pairs matched v).1 = findNext env cfg ctx.isSub text ctx.tag bonding pairs matched v := by
  cases v with
  | one s =>
    rw [findNextR, findNext, then_fst, findLoopR_fst]
    cases findLoop env cfg ctx.isSub text s ⟨0, false, matched⟩ pairs <;> rfl
  | many ss =>
    rw [findNextR, findNext, then_fst, findTextsR_fst]
    cases findTexts env cfg ctx.isSub text pairs matched ss <;> rfl

theorem applySubsR_fst (env : CoreEnv) (cfg : CoreCfg) (seq : CoreSeq) (d : Doc) (matched : List Nat) (ss : List CoreSub) :
    (applySubsR env cfg seq d matched ss).1 = applySubs env cfg seq d matched ss := by
  induction ss generalizing d matched with
  | nil => rfl
  | cons s ss ih =>
    rw [applySubsR, applySubs, then_fst, findNextR_fst]
    cases findNext env cfg true (coreSeqText env (normaliseStr env.lower) d) s.name s.bonding [(seq, none)] matched
        (s.value.map (normaliseStr env.lower)) with
    | error e => rfl
    | ok q => exact ih _ _

theorem applyMatchesR_fst (env : CoreEnv) (cfg : CoreCfg) (t : CoreTarget) (st : Doc × List Nat) (ms : List SeqMatch) :
    (applyMatchesR env cfg t st ms).1 = applyMatches env cfg t st ms := by
  induction ms generalizing st with
  | nil => rfl
  | cons m ms ih =>
    obtain ⟨d, all⟩ := st
    rw [applyMatchesR, applyMatches]
    split
    · exact ih _
    · rw [then_fst, applySubsR_fst]
      cases applySubs env cfg ⟨(tagLoop cfg t.name (d, all) (coreTokensBetween env (coreNormalise env) d m.range2 m.seq)).2, 0⟩
        (tagLoop cfg t.name (d, all) (coreTokensBetween env (coreNormalise env) d m.range2 m.seq)).1 [] t.subs with
      | error e => rfl
      | ok d' => exact ih _

theorem applyConditionalR_fst (env : CoreEnv) (cfg : CoreCfg) (cond : Conditional) (ms : List SeqMatch) (d : Doc) :
    (applyConditionalR env cfg cond ms d).1 = applyConditional env cfg cond ms d := by
  unfold applyConditionalR applyConditional
  cases cond with
  | none => rfl
  | some c =>
    simp only
    split
    · exact applyMatchesR_fst _ _ _ _ _
    · rfl

theorem annotateItemsR_fst (env : CoreEnv) (cfg : CoreCfg) (t : CoreTarget) (n : Nat) (d : Doc) (cond : Conditional)
    (matched : List Nat) (choices : Choices) :
    (annotateItemsR env cfg t n d cond matched choices).1 = annotateItems env cfg t n d cond matched choices := by
  induction n generalizing d cond matched choices with
  | zero => rfl
  | succ n ih =>
    rw [annotateItemsR, annotateItems, then_fst, findNextR_fst]
    cases findNext env cfg false (coreSeqText env (coreNormalise env) d) t.name t.bonding (choices.pairs d) matched
        (t.value.map (coreNormalise env)) with
    | error e => rfl
    | ok q =>
      simp only
      split
      · rfl
      · rw [then_fst, applyConditionalR_fst]
        cases applyConditional env cfg cond (sortBy matchLe q.1) d with
        | error e => rfl
        | ok d1 =>
          simp only
          rw [then_fst]
          have e : (if t.requireNext = true then Reported.silent (.ok d1) else applyMatchesR env cfg t (d1, []) (sortBy matchLe q.1)).1 =
              (if t.requireNext = true then .ok d1 else applyMatches env cfg t (d1, []) (sortBy matchLe q.1)) := by
            split
            · rfl
            · exact applyMatchesR_fst _ _ _ _ _
          rw [e]
          cases (if t.requireNext = true then (.ok d1 : Except Err Doc) else applyMatches env cfg t (d1, []) (sortBy matchLe q.1)) with
          | error e => rfl
          | ok d2 =>
            simp only
            by_cases hm : t.matchMultiple = true
            · rw [if_pos hm, if_pos hm]
              exact ih _ _ _ _
            · rw [if_neg hm, if_neg hm]
              rfl

theorem annotateTargetsR_fst (env : CoreEnv) (cfg : CoreCfg) (fuel : Nat) (pending : List CoreSeq) (st : CoreState)
    (ts : List CoreTarget) :
    (annotateTargetsR env cfg fuel pending st ts).1 = annotateTargets env cfg fuel pending st ts := by
  induction ts generalizing st with
  | nil => rfl
  | cons t ts ih =>
    rw [annotateTargetsR, annotateTargets, then_fst, annotateItemsR_fst]
    cases annotateItems env cfg t fuel st.doc st.cond (if t.bonding then st.matchedMap.getD t.name [] else []) ⟨[], pending, 0, 1⟩ with
    | error e => rfl
    | ok o =>
      cases o with
      | none => rfl
      | some q => exact ih _

theorem coreAnnotateR_fst (env : CoreEnv) (cfg : CoreCfg) (targets : List CoreTarget) (d : Doc) :
    (coreAnnotateR env cfg targets d).1 = coreAnnotate env cfg targets d := by
  unfold coreAnnotateR coreAnnotate
  simp only
  rw [then_fst, annotateTargetsR_fst]
  cases annotateTargets env cfg (((corePending d).flatMap (·.tokens)).length + 1) (corePending d) ⟨d, none, []⟩ targets with
  | error e => rfl
  | ok o => cases o <;> rfl

end Verif
