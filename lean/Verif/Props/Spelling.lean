/-
C153: spellings which make no difference.
-/
import Verif.Spec.Spelling
import Verif.Props.MatchingRanges
import Verif.Props.CoreMatching
import Verif.Lemmas.JatsDoc
import Verif.Model.Tools

namespace Verif
open Spec

/-! ### Texts -/

/-- Replacing a text by another one which has none of the characters concerned. -/
theorem replaceAll_map (f : Char → Char) (old new : Str) (hold : ∀ c ∈ old, ∀ x, f x = c ↔ x = c) (hnew : ∀ c ∈ new, f c = c) (s : Str) :
    (replaceAll old new s).map f = replaceAll old new (s.map f) := by
  have hpre : ∀ (p : Str), (∀ c ∈ p, ∀ x, f x = c ↔ x = c) → ∀ s : Str, startsWith p (s.map f) = startsWith p s := by
    intro p
    induction p with
    | nil => intro _ s; simp [startsWith]
    | cons c p ih =>
      intro hp s
      cases s with
      | nil => rfl
      | cons x s =>
        have e := ih (fun c hc => hp c (List.mem_cons_of_mem _ hc)) s
        unfold startsWith at e ⊢
        rw [List.map_cons, List.isPrefixOf_cons_cons, List.isPrefixOf_cons_cons, e]
        congr 1
        have := hp c List.mem_cons_self x
        rw [Bool.eq_iff_iff, beq_iff_eq, beq_iff_eq]
        exact ⟨fun h => (this.1 h.symm).symm, fun h => (this.2 h.symm).symm⟩
  generalize hn : s.length = n
  induction n using Nat.strongRecOn generalizing s with
  | _ n ih =>
    cases s with
    | nil => rw [replaceAll, List.map_nil, replaceAll]
    | cons c s =>
      rw [replaceAll, List.map_cons, replaceAll]
      have e := hpre old hold (c :: s)
      rw [List.map_cons] at e
      rw [e]
      rw [List.length_cons] at hn
      split
      · rw [List.map_append, ih _ (by rw [List.length_drop]; omega) _ rfl, List.map_drop]
        congr 1
        conv => rhs; rw [← List.map_id new]
        exact List.map_congr_left hnew
      · rw [List.map_cons, ih _ (by omega) _ rfl]

theorem normaliseStr_eq (lower : Str → Str) (s : Str) :
    normaliseStr lower s = replaceAll c!"&apos;" ['"'] ((lower s).map spelled) := by
  unfold normaliseStr
  rw [replaceAll_char '\'', replaceAll_char '\u2009', replaceAll_char '\u2013', replaceAll_char '\u2014']
  rw [replaceAll_map (fun x => if x = '\'' then '"' else x) c!"&apos;" ['"'] ?_ ?_]
  · congr 1
    rw [List.map_map, List.map_map, List.map_map]
    refine List.map_congr_left fun c _ => ?_
    show (if (if (if (if c = '\u2014' then '-' else c) = '\u2013' then '-' else (if c = '\u2014' then '-' else c)) = '\u2009' then ' '
      else (if (if c = '\u2014' then '-' else c) = '\u2013' then '-' else (if c = '\u2014' then '-' else c))) = '\'' then '"' else _) = spelled c
    unfold spelled
    by_cases h1 : c = '\u2014'
    · subst h1; decide
    · by_cases h2 : c = '\u2013'
      · subst h2; decide
      · by_cases h3 : c = '\u2009'
        · subst h3; decide
        · by_cases h4 : c = '\''
          · subst h4; decide
          · simp [h1, h2, h3, h4]
  · intro c hc x
    have hne : c ≠ '\'' ∧ c ≠ '"' := (by decide : ∀ c ∈ c!"&apos;", c ≠ '\'' ∧ c ≠ '"') c hc
    split
    · next h => exact ⟨fun e => absurd e.symm hne.2, fun e => absurd (e.symm.trans h) hne.1⟩
    · exact Iff.rfl
  · decide

/-- **C153.** What the matchers compare is the text in lower case, in which long dashes are hyphens, thin spaces are
spaces, single quotes are double ones, and so is the entity for an apostrophe. -/
theorem C153_normalised (lower : Str → Str) (s : Str) :
    Substituted c!"&apos;" c!"\"" ((lower s).map spelled) (normaliseStr lower s) := by
  rw [normaliseStr_eq]
  exact substituted_replaceAll _ _ (by decide) _

theorem notIgnored_eq (cc : CharClass) (pre s : Str) :
    (((s.zipIdx pre.length).filter (fun c => !coreIsJunk cc (pre ++ s) c.2)).map Prod.fst) = notIgnored cc pre.getLast? s := by
  induction s generalizing pre with
  | nil => rfl
  | cons c s ih =>
    have e := ih (pre ++ [c])
    rw [List.length_append, List.length_singleton, List.append_assoc, List.singleton_append, List.getLast?_concat] at e
    have hj : coreIsJunk cc (pre ++ c :: s) pre.length = (c == '*' || (pre.getLast?.map (fun p => ignoredAfter cc p c)).getD false) := by
      unfold coreIsJunk ignoredAfter
      have h1 : (pre ++ c :: s)[pre.length]? = some c := by
        rw [List.getElem?_append_right (Nat.le_refl _), Nat.sub_self]; rfl
      rw [h1]
      by_cases hp : pre = []
      · subst hp
        simp
      · have hl : 0 < pre.length := List.length_pos_iff.2 hp
        have h2 : (pre ++ c :: s)[pre.length - 1]? = pre.getLast? := by
          rw [List.getElem?_append_left (by omega), List.getLast?_eq_getElem?]
        rw [h2, List.getLast?_eq_some_getLast hp]
        simp only [hl, decide_true, Bool.true_and, Option.map_some, Option.getD_some, Option.some_beq_some]
        generalize (pre.getLast hp == '.' && (c == ' ' || c == ',')) = b1
        generalize (cc.isAlpha (pre.getLast hp) && c == '.') = b2
        generalize (pre.getLast hp == c) = b3
        generalize (c == '*') = b4
        cases b1 <;> cases b2 <;> cases b3 <;> cases b4 <;> rfl
    rw [List.zipIdx_cons, List.filter_cons]
    unfold notIgnored
    rw [hj]
    cases (c == '*' || (pre.getLast?.map (fun p => ignoredAfter cc p c)).getD false) with
    | true => exact e
    | false =>
      simp only [Bool.not_false, if_true, List.map_cons, Bool.false_eq_true, if_false]
      rw [e]

/-- **C153** for the complex matcher: moreover it ignores asterisks, spaces and commas behind a full stop, full stops
behind a letter, and characters which are repeated. -/
theorem C153_complex_text (env : CoreEnv) (s : Str) :
    coreNormalise env s = notIgnored env.cc none (normaliseStr env.lower s) := by
  unfold coreNormalise
  rw [Props.C55_remove]
  exact notIgnored_eq env.cc [] _

theorem normaliseStr_same {lower : Str → Str} {s s' : Str} (h : SameSpelling lower s s') : normaliseStr lower s = normaliseStr lower s' := by
  rw [normaliseStr_eq, normaliseStr_eq, h.2]

theorem sameSpellings_map {lower : Str → Str} (f : Str → Str) (hf : ∀ s s', SameSpelling lower s s' → f s = f s') :
    ∀ ss ss' : List Str, SameSpellings lower ss ss' → ss.map f = ss'.map f
  | [], [], _ => rfl
  | s :: ss, s' :: ss', h => by rw [List.map_cons, List.map_cons, hf s s' h.1, sameSpellings_map f hf ss ss' h.2]
  | [], _ :: _, h => nomatch h
  | _ :: _, [], h => nomatch h

theorem sameValue_map {lower : Str → Str} (f : Str → Str) (hf : ∀ s s', SameSpelling lower s s' → f s = f s') {v v' : TargetValue}
    (h : SameValue lower v v') : v.map f = v'.map f := by
  cases v with
  | one s =>
    cases v' with
    | one s' => exact congrArg TargetValue.one (hf s s' h)
    | many ss' => exact nomatch h
  | many ss =>
    cases v' with
    | one s' => exact nomatch h
    | many ss' => exact congrArg TargetValue.many (sameSpellings_map f hf ss ss' h)

/-! ### The simple matcher -/

theorem findChunks_same (env : MatchEnv) (cfg : MatchCfg) (n : Int) (text : Str) {s s' : Str} (h : SameSpelling env.lower s s') :
    findChunks env cfg n text s = findChunks env cfg n text s' := by
  unfold findChunks
  rw [h.1, normaliseStr_same h]

theorem findFirst_same (env : MatchEnv) (cfg : MatchCfg) (n : Int) (text : Str) {s s' : Str} (h : SameSpelling env.lower s s') :
    findWithAlternatives env cfg n [] text s = findWithAlternatives env cfg n [] text s' := by
  show findFirst env cfg n text [s] = findFirst env cfg n text [s']
  unfold findFirst
  rw [findChunks_same env cfg n text h]

theorem findMany_same (env : MatchEnv) (cfg : MatchCfg) (text : Str) : ∀ ss ss' : List Str, SameSpellings env.lower ss ss' →
    findMany env cfg [] text ss = findMany env cfg [] text ss'
  | [], [], _ => rfl
  | s :: ss, s' :: ss', h => by
    unfold findMany
    rw [findFirst_same env cfg 1 text h.1, findMany_same env cfg text ss ss' h.2]
  | [], _ :: _, h => nomatch h
  | _ :: _, [], h => nomatch h

theorem matchingRanges_same (env : MatchEnv) (cfg : MatchCfg) (text : Str) {t t' : Target} (h : SpelledAlike env.lower cfg t t') :
    matchingRanges env cfg text t' = matchingRanges env cfg text t := by
  obtain ⟨h1, _, h3, h4⟩ := h
  unfold matchingRanges
  rw [h1]
  simp only [h4]
  generalize t.value = v at h3
  generalize t'.value = v' at h3
  cases v with
  | one s =>
    cases v' with
    | one s' => exact (findFirst_same env cfg _ text h3).symm
    | many ss' => exact nomatch h3
  | many ss =>
    cases v' with
    | one s' => exact nomatch h3
    | many ss' =>
      simp only
      rw [findMany_same env cfg text ss ss' h3]

theorem applyRanges_same (env : MatchEnv) (senv : SeqEnv) (cfg : MatchCfg) (seqs : List (List Nat)) {t t' : Target} (h : SpelledAlike env.lower cfg t t')
    (rs : List (Nat × Nat)) : ∀ d, applyRanges env senv cfg seqs t' d rs = applyRanges env senv cfg seqs t d rs := by
  induction rs with
  | nil => exact fun d => rfl
  | cons r rs ih =>
    intro d
    unfold applyRanges
    have e : applyPrefixRegex env cfg (seqsText senv d seqs) r t' = applyPrefixRegex env cfg (seqsText senv d seqs) r t := by
      unfold applyPrefixRegex
      rw [h.1, h.2.1]
    rw [e, h.1, h.2.1]
    simp only [ih]

/-- The states are the same, up to the spelling of the target annotations which are left over. -/
def SameState (r : Target → Target → Prop) (st st' : MatchState) : Prop :=
  st'.doc = st.doc ∧ st'.current = st.current ∧ st'.block = st.block ∧ Pairwise2 r st.untagged st'.untagged

theorem pairwise2_append {α : Type} {r : α → α → Prop} {x x' : α} (hx : r x x') :
    ∀ l l' : List α, Pairwise2 r l l' → Pairwise2 r (l ++ [x]) (l' ++ [x'])
  | [], [], _ => ⟨hx, trivial⟩
  | _ :: l, _ :: l', h => ⟨h.1, pairwise2_append hx l l' h.2⟩
  | [], _ :: _, h => nomatch h
  | _ :: _, [], h => nomatch h

theorem pairwise2_length {α : Type} {r : α → α → Prop} : ∀ l l' : List α, Pairwise2 r l l' → l'.length = l.length
  | [], [], _ => rfl
  | _ :: l, _ :: l', h => congrArg (· + 1) (pairwise2_length l l' h.2)
  | [], _ :: _, h => nomatch h
  | _ :: _, [], h => nomatch h

/-- The results are the same errors, or related. -/
def SameResult {α : Type} (r : α → α → Prop) : Except Err α → Except Err α → Prop
  | .error e, .error e' => e' = e
  | .ok x, .ok x' => r x x'
  | _, _ => False

theorem processTarget_same (env : MatchEnv) (cfg : MatchCfg) (pending : List (List Nat)) {st st' : MatchState}
    (hs : SameState (SpelledAlike env.lower cfg) st st') {t t' : Target} (h : SpelledAlike env.lower cfg t t') :
    SameResult (SameState (SpelledAlike env.lower cfg)) (processTarget env cfg pending st t) (processTarget env cfg pending st' t') := by
  obtain ⟨d, cur, bl, un⟩ := st
  obtain ⟨d', cur', bl', un'⟩ := st'
  obtain ⟨h1, h2, h3, h4⟩ := hs
  simp only at h1 h2 h3 h4
  subst h1 h2 h3
  unfold processTarget
  simp only
  rw [matchingRanges_same env cfg _ h, matchingRanges_same env cfg _ h, h.1]
  simp only [applyRanges_same env _ cfg _ h]
  cases matchingRanges env cfg (seqsText (matchSeqEnv env) d' (pendingSequences d' cur' (some cfg.lookahead))) t with
  | error e => exact rfl
  | ok rs =>
    cases rs with
    | cons r rs =>
      simp only
      cases applyRanges env (matchSeqEnv env) cfg (pendingSequences d' cur' (some cfg.lookahead)) t d' (r :: rs) with
      | error e => exact rfl
      | ok d1 => exact ⟨rfl, rfl, rfl, h4⟩
    | nil =>
      simp only
      split
      · exact ⟨rfl, rfl, rfl, pairwise2_append h _ _ h4⟩
      · cases matchingRanges env cfg (seqsText (matchSeqEnv env) d' (pendingSequences d' pending none)) t with
        | error e => exact rfl
        | ok rs =>
          cases rs with
          | nil => exact ⟨rfl, rfl, rfl, pairwise2_append h _ _ h4⟩
          | cons r rs =>
            simp only
            cases mergeIndexRanges (r :: rs) with
            | error e => exact rfl
            | ok m =>
              simp only
              cases applyRanges env (matchSeqEnv env) cfg (pendingSequences d' pending none) t d' (r :: rs) with
              | error e => exact rfl
              | ok d1 => exact ⟨rfl, rfl, rfl, h4⟩

theorem processTargets_same (env : MatchEnv) (cfg : MatchCfg) (pending : List (List Nat)) : ∀ (ts ts' : List Target) (st st' : MatchState),
    SameState (SpelledAlike env.lower cfg) st st' → Pairwise2 (SpelledAlike env.lower cfg) ts ts' →
    SameResult (SameState (SpelledAlike env.lower cfg)) (processTargets env cfg pending st ts) (processTargets env cfg pending st' ts')
  | [], [], st, st', hs, _ => hs
  | t :: ts, t' :: ts', st, st', hs, h => by
    unfold processTargets
    have e := processTarget_same env cfg pending hs h.1
    generalize processTarget env cfg pending st t = r at e
    generalize processTarget env cfg pending st' t' = r' at e
    cases r with
    | error x =>
      cases r' with
      | error x' => exact e
      | ok y => exact nomatch e
    | ok y =>
      cases r' with
      | error x' => exact nomatch e
      | ok y' => exact processTargets_same env cfg pending ts ts' y y' e h.2
  | [], _ :: _, _, _, _, h => nomatch h
  | _ :: _, [], _, _, _, h => nomatch h

theorem annotateLoop_same (env : MatchEnv) (cfg : MatchCfg) : ∀ (n : Nat) (d : Doc) (ts ts' : List Target),
    Pairwise2 (SpelledAlike env.lower cfg) ts ts' →
    (annotateLoop env cfg n d ts').map (Option.map Prod.fst) = (annotateLoop env cfg n d ts).map (Option.map Prod.fst)
  | n, d, [], [], _ => by cases n <;> rfl
  | 0, d, t :: ts, t' :: ts', _ => rfl
  | n + 1, d, t :: ts, t' :: ts', h => by
    unfold annotateLoop processTargetAnnotations
    have e := processTargets_same env cfg (pendingOfDoc d) (t :: ts) (t' :: ts') ⟨d, pendingOfDoc d, none, []⟩ ⟨d, pendingOfDoc d, none, []⟩
      ⟨rfl, rfl, rfl, trivial⟩ h
    simp only
    generalize processTargets env cfg (pendingOfDoc d) ⟨d, pendingOfDoc d, none, []⟩ (t :: ts) = r at e
    generalize processTargets env cfg (pendingOfDoc d) ⟨d, pendingOfDoc d, none, []⟩ (t' :: ts') = r' at e
    cases r with
    | error x =>
      cases r' with
      | error x' => exact congrArg Except.error e
      | ok y => exact nomatch e
    | ok y =>
      cases r' with
      | error x' => exact nomatch e
      | ok y' =>
        obtain ⟨e1, _, _, e4⟩ := e
        simp only
        rw [e1, pairwise2_length _ _ e4, pairwise2_length _ _ h]
        split
        · rfl
        · exact annotateLoop_same env cfg n _ _ _ e4
  | _, _, [], _ :: _, h => nomatch h
  | _, _, _ :: _, [], h => nomatch h

/-- **C153** for the simple matcher: how the values of the target annotations are spelled, up to case, kinds of dashes,
spaces and quotes, makes no difference to the document, unless there are alternative spellings for a field. -/
theorem C153_simple (env : MatchEnv) (cfg : MatchCfg) (ts ts' : List Target) (h : Pairwise2 (SpelledAlike env.lower cfg) ts ts') (d : Doc) :
    simpleAnnotate env cfg ts' d = simpleAnnotate env cfg ts d := by
  have e := annotateLoop_same env cfg ts.length d ts ts' h
  unfold simpleAnnotate simpleAnnotateFuel
  rw [pairwise2_length _ _ h]
  generalize annotateLoop env cfg ts.length d ts' = r' at e
  generalize annotateLoop env cfg ts.length d ts = r at e
  cases r with
  | error x =>
    cases r' with
    | error x' =>
      obtain rfl : x' = x := Except.error.inj e
      rfl
    | ok y => exact nomatch e
  | ok y =>
    cases r' with
    | error x' => exact nomatch e
    | ok y' =>
      have e : y'.map Prod.fst = y.map Prod.fst := Except.ok.inj e
      cases y with
      | none =>
        cases y' with
        | none => rfl
        | some z => exact nomatch e
      | some z =>
        cases y' with
        | none => exact nomatch e
        | some z' =>
          have e : z'.1 = z.1 := Option.some.inj e
          obtain ⟨z1, z2⟩ := z
          obtain ⟨z1', z2'⟩ := z'
          simp only at e ⊢
          rw [e]

/-! ### The complex matcher -/

theorem coreNormalise_same (env : CoreEnv) {s s' : Str} (h : SameSpelling env.lower s s') : coreNormalise env s = coreNormalise env s' := by
  unfold coreNormalise
  rw [normaliseStr_same h]

theorem applySubs_same (env : CoreEnv) (cfg : CoreCfg) (seq : CoreSeq) : ∀ (ss ss' : List CoreSub), Pairwise2 (CoreSubAlike env.lower) ss ss' →
    ∀ d matched, applySubs env cfg seq d matched ss' = applySubs env cfg seq d matched ss
  | [], [], _, d, matched => rfl
  | s :: ss, s' :: ss', h, d, matched => by
    obtain ⟨⟨h1, h2, h3⟩, h4⟩ := h
    unfold applySubs
    rw [h1, h2, ← sameValue_map (normaliseStr env.lower) (fun _ _ => normaliseStr_same) h3]
    simp only [applySubs_same env cfg seq ss ss' h4]
  | [], _ :: _, h, _, _ => nomatch h
  | _ :: _, [], h, _, _ => nomatch h

theorem applyMatches_same (env : CoreEnv) (cfg : CoreCfg) {t t' : CoreTarget} (h : CoreAlike env.lower t t') (ms : List SeqMatch) :
    ∀ st, applyMatches env cfg t' st ms = applyMatches env cfg t st ms := by
  obtain ⟨h1, _, _, _, _, h6⟩ := h
  have he : t'.subs.isEmpty = t.subs.isEmpty := by
    generalize t.subs = l at h6
    generalize t'.subs = l' at h6
    cases l <;> cases l' <;> first | rfl | exact nomatch h6
  induction ms with
  | nil => intro st; rfl
  | cons m ms ih =>
    intro st
    obtain ⟨d, all⟩ := st
    unfold applyMatches
    rw [h1, he]
    simp only [ih, applySubs_same env cfg _ _ _ h6]

/-- The conditional matches are the same up to spelling. -/
def SameConditional (lower : Str → Str) : Conditional → Conditional → Prop
  | none, none => True
  | some (t, ms), some (t', ms') => CoreAlike lower t t' ∧ ms' = ms
  | _, _ => False

theorem applyConditional_same (env : CoreEnv) (cfg : CoreCfg) (ms : List SeqMatch) (d : Doc) : ∀ c c' : Conditional, SameConditional env.lower c c' →
    applyConditional env cfg c' ms d = applyConditional env cfg c ms d
  | none, none, _ => rfl
  | some (t, ms0), some (t', ms'), h => by
    obtain ⟨h1, rfl⟩ := h
    unfold applyConditional
    simp only [applyMatches_same env cfg h1]
  | none, some _, h => nomatch h
  | some _, none, h => nomatch h

/-- The states between two iterations are the same up to spelling. -/
def SameItems (lower : Str → Str) : Option (Doc × Conditional × List Nat) → Option (Doc × Conditional × List Nat) → Prop
  | none, none => True
  | some (d, c, m), some (d', c', m') => d' = d ∧ SameConditional lower c c' ∧ m' = m
  | _, _ => False

theorem annotateItems_same (env : CoreEnv) (cfg : CoreCfg) {t t' : CoreTarget} (h : CoreAlike env.lower t t') :
    ∀ (n : Nat) (d : Doc) (c c' : Conditional) (matched : List Nat) (choices : Choices), SameConditional env.lower c c' →
    SameResult (SameItems env.lower) (annotateItems env cfg t n d c matched choices) (annotateItems env cfg t' n d c' matched choices)
  | 0, d, c, c', matched, choices, _ => trivial
  | n + 1, d, c, c', matched, choices, hc => by
    obtain ⟨h1, h2, h3, h4, h5, h6⟩ := h
    unfold annotateItems
    rw [h1, h2, h3, h4, ← sameValue_map (coreNormalise env) (fun _ _ => coreNormalise_same env) h5]
    cases findNext env cfg false (coreSeqText env (coreNormalise env) d) t.name t.bonding (choices.pairs d) matched
        (t.value.map (coreNormalise env)) with
    | error e => exact rfl
    | ok q =>
      obtain ⟨found, matched', used⟩ := q
      simp only
      split
      · exact ⟨rfl, trivial, rfl⟩
      · rw [applyConditional_same env cfg _ d c c' hc]
        cases applyConditional env cfg c (sortBy matchLe found) d with
        | error e => exact rfl
        | ok d1 =>
          simp only [applyMatches_same env cfg ⟨h1, h2, h3, h4, h5, h6⟩]
          cases (if t.requireNext then .ok d1 else applyMatches env cfg t (d1, []) (sortBy matchLe found) : Except Err Doc) with
          | error e => exact rfl
          | ok d2 =>
            simp only
            have hc' : SameConditional env.lower (if t.requireNext then some (t, sortBy matchLe found) else c)
                (if t.requireNext then some (t', sortBy matchLe found) else c') := by
              split
              · exact ⟨⟨h1, h2, h3, h4, h5, h6⟩, rfl⟩
              · exact hc
            split
            · exact annotateItems_same env cfg ⟨h1, h2, h3, h4, h5, h6⟩ n d2 _ _ matched' _ hc'
            · exact ⟨rfl, hc', rfl⟩

theorem annotateTargets_same (env : CoreEnv) (cfg : CoreCfg) (fuel : Nat) (pending : List CoreSeq) :
    ∀ (ts ts' : List CoreTarget), Pairwise2 (CoreAlike env.lower) ts ts' → ∀ (d : Doc) (c c' : Conditional) (m : Dict (List Nat)),
    SameConditional env.lower c c' →
    (annotateTargets env cfg fuel pending ⟨d, c', m⟩ ts').map (Option.map CoreState.doc) =
      (annotateTargets env cfg fuel pending ⟨d, c, m⟩ ts).map (Option.map CoreState.doc)
  | [], [], _, d, c, c', m, _ => rfl
  | t :: ts, t' :: ts', h, d, c, c', m, hc => by
    unfold annotateTargets
    have hb := h.1.2.2.1
    have hn := h.1.1
    rw [hb, hn]
    have e := annotateItems_same env cfg h.1 fuel d c c' (if t.bonding then m.getD t.name [] else []) ⟨[], pending, 0, 1⟩ hc
    simp only
    generalize annotateItems env cfg t fuel d c (if t.bonding then m.getD t.name [] else []) ⟨[], pending, 0, 1⟩ = r at e
    generalize annotateItems env cfg t' fuel d c' (if t.bonding then m.getD t.name [] else []) ⟨[], pending, 0, 1⟩ = r' at e
    cases r with
    | error x =>
      cases r' with
      | error x' => exact congrArg Except.error e
      | ok y => exact nomatch e
    | ok y =>
      cases r' with
      | error x' => exact nomatch e
      | ok y' =>
        cases y with
        | none =>
          cases y' with
          | none => rfl
          | some z => exact nomatch e
        | some z =>
          cases y' with
          | none => exact nomatch e
          | some z' =>
            obtain ⟨d1, c1, m1⟩ := z
            obtain ⟨d2, c2, m2⟩ := z'
            obtain ⟨rfl, e2, rfl⟩ := e
            exact annotateTargets_same env cfg fuel pending ts ts' h.2 _ _ _ _ e2
  | [], _ :: _, h, _, _, _, _, _ => nomatch h
  | _ :: _, [], h, _, _, _, _, _ => nomatch h

/-- **C153** for the complex matcher: how the values of target annotations and of their sub annotations are spelled
makes no difference to the document. -/
theorem C153_complex (env : CoreEnv) (cfg : CoreCfg) (ts ts' : List CoreTarget) (h : Pairwise2 (CoreAlike env.lower) ts ts') (d : Doc) :
    coreAnnotate env cfg ts' d = coreAnnotate env cfg ts d := by
  unfold coreAnnotate
  have e := annotateTargets_same env cfg (((corePending d).flatMap (·.tokens)).length + 1) (corePending d) ts ts' h d none none [] trivial
  simp only
  generalize annotateTargets env cfg (((corePending d).flatMap (·.tokens)).length + 1) (corePending d) ⟨d, none, []⟩ ts' = r' at e
  generalize annotateTargets env cfg (((corePending d).flatMap (·.tokens)).length + 1) (corePending d) ⟨d, none, []⟩ ts = r at e
  cases r with
  | error x =>
    cases r' with
    | error x' =>
      obtain rfl : x' = x := Except.error.inj e
      rfl
    | ok y => exact nomatch e
  | ok y =>
    cases r' with
    | error x' => exact nomatch e
    | ok y' =>
      have e : y'.map CoreState.doc = y.map CoreState.doc := Except.ok.inj e
      cases y with
      | none =>
        cases y' with
        | none => rfl
        | some z => exact nomatch e
      | some z =>
        cases y' with
        | none => exact nomatch e
        | some z' => exact congrArg Except.ok (Option.some.inj e)

/-! ### The tools -/

theorem pairwise2_imp {α : Type} {r r' : α → α → Prop} (hr : ∀ x y, r x y → r' x y) : ∀ l l' : List α, Pairwise2 r l l' → Pairwise2 r' l l'
  | [], [], _ => trivial
  | _ :: l, _ :: l', h => ⟨hr _ _ h.1, pairwise2_imp hr l l' h.2⟩
  | [], _ :: _, h => nomatch h
  | _ :: _, [], h => nomatch h

/-- **C153** for the tools: the files written do not depend on the spelling of the values. -/
theorem C153_tool (env : ToolEnv) (a : ToolArgs) (ts : List Target) (cts : List CoreTarget)
    (hs : Pairwise2 (SpelledAlike env.simple.lower { tagConfigMap := a.tagConfigMap }) a.targets ts)
    (hc : Pairwise2 (CoreAlike env.core.lower) a.coreTargets cts)
    (t : Tool) (cfg : DocCfg) (passes : Doc → Except Err Bool) (root : Elem) (target : Str) (failed : Option Str) :
    t.run env { a with targets := ts, coreTargets := cts } cfg passes root target failed = t.run env a cfg passes root target failed := by
  have h1 : ∀ c : MatchCfg, c.tagConfigMap = a.tagConfigMap → simpleAnnotate env.simple c ts = simpleAnnotate env.simple c a.targets := by
    intro c hcfg
    funext d
    refine C153_simple env.simple c a.targets ts (pairwise2_imp (fun x y h => ⟨h.1, h.2.1, h.2.2.1, ?_⟩) _ _ hs) d
    have := h.2.2.2
    unfold MatchCfg.tagConfig at this ⊢
    rw [hcfg]
    exact this
  have h2 : ∀ c : CoreCfg, coreAnnotate env.core c cts = coreAnnotate env.core c a.coreTargets := by
    intro c
    funext d
    exact C153_complex env.core c a.coreTargets cts hc d
  have e : t.annotators env { a with targets := ts, coreTargets := cts } = t.annotators env a := by
    cases t <;> simp only [Tool.annotators, defaultAnnotators, matchOrSubTags, simpleCfg, complexCfg, h1, h2]
  have e2 : t.annotateCfg { a with targets := ts, coreTargets := cts } = t.annotateCfg a := rfl
  unfold Tool.run
  rw [e, e2]

/-! ### Examples -/

/-- One line of a document with a long dash. -/
def exDashDoc : Doc := docOfWords [[c!"see", c!"a\u2013b", c!"at", c!"end"]]

/-- A target annotation with a hyphen, and the same one with another long dash. -/
def exDashTarget (dash : Char) : Target := ⟨c!"figure", .one (c!"see a" ++ [dash] ++ c!"b at"), [(c!"figure-label", .one c!"see")]⟩

/-- The target annotations are alike. -/
example : Pairwise2 (SpelledAlike exMatchEnv.lower { useSubAnnotations := true, extendToLineEnabled := false }) [exDashTarget '-'] [exDashTarget '\u2014'] :=
  ⟨⟨rfl, rfl, ⟨rfl, by decide⟩, by decide⟩, trivial⟩

/-- And they are found. -/
example : ∃ d', simpleAnnotate exMatchEnv { useSubAnnotations := true, extendToLineEnabled := false } [exDashTarget '\u2014'] exDashDoc = .ok d' ∧
    docTags d' = [some c!"b-figure", some c!"i-figure", some c!"i-figure", none] :=
  exists_of_okAnd (by decide +kernel)

/-- The same for the complex matcher. -/
example : Pairwise2 (CoreAlike coreExampleEnv.lower)
    [⟨c!"figure", .one c!"see a-b at end", false, false, false, [⟨c!"figure-label", .one c!"a-b", false⟩]⟩]
    [⟨c!"figure", .one c!"see a\u2014b at end", false, false, false, [⟨c!"figure-label", .one c!"a\u2013b", false⟩]⟩] :=
  ⟨⟨rfl, rfl, rfl, rfl, ⟨rfl, by decide⟩, ⟨⟨rfl, rfl, ⟨rfl, by decide⟩⟩, trivial⟩⟩, trivial⟩

example : ∃ d', coreAnnotate coreExampleEnv {} [⟨c!"figure", .one c!"see a-b at end", false, false, false, [⟨c!"figure-label", .one c!"a-b", false⟩]⟩]
      exDashDoc = .ok d' ∧
    d'.nonSpaceTokens.map (fun i => (d'.getTag i, d'.getSubTag i)) = [(some c!"figure", none), (some c!"figure", some c!"figure-label"),
      (some c!"figure", none), (some c!"figure", none)] :=
  exists_of_okAnd (by decide +kernel)

/-- What is compared. -/
example : normaliseStr id c!"a\u2014b\u2009&apos;c' d" = c!"a-b \"c\" d" := by decide +kernel

/-- What the complex matcher compares. -/
example : coreNormalise coreExampleEnv c!"J. Smith*, aa" = c!"JSmith, a" := by decide +kernel

/-- It matters to the simple matcher how the value of a sub annotation is spelled: the target annotation is found with
either dash, but the sub label is given only if the dash of the value is the one of the document. -/
theorem C153_sub_spelling :
    let target (dash : Char) : Target := ⟨c!"figure", .one c!"see a-b at", [(c!"figure-label", .one (c!"a" ++ [dash] ++ c!"b"))]⟩
    (∃ d', simpleAnnotate exMatchEnv { useSubAnnotations := true, extendToLineEnabled := false } [target '\u2013'] exDashDoc = .ok d' ∧
      d'.nonSpaceTokens.map (fun i => (d'.getTag i, d'.getSubTag i)) =
        [(some c!"b-figure", none), (some c!"i-figure", some c!"b-figure-label"), (some c!"i-figure", none), (none, none)]) ∧
    ∃ d', simpleAnnotate exMatchEnv { useSubAnnotations := true, extendToLineEnabled := false } [target '-'] exDashDoc = .ok d' ∧
      d'.nonSpaceTokens.map (fun i => (d'.getTag i, d'.getSubTag i)) =
        [(some c!"b-figure", none), (some c!"i-figure", none), (some c!"i-figure", none), (none, none)] :=
  ⟨exists_of_okAnd (by decide +kernel), exists_of_okAnd (by decide +kernel)⟩

/-- And so does it if there are alternative spellings, which are given for one spelling of the value. -/
theorem C153_alternative_spelling :
    let cfg : MatchCfg := { extendToLineEnabled := false, tagConfigMap := [(c!"figure", { alternativeSpellings := [(c!"c-d", [c!"see"])] })] }
    (∃ d', simpleAnnotate exMatchEnv cfg [⟨c!"figure", .one c!"c-d", []⟩] exDashDoc = .ok d' ∧ docTags d' = [some c!"b-figure", none, none, none]) ∧
    ∃ d', simpleAnnotate exMatchEnv cfg [⟨c!"figure", .one c!"c\u2013d", []⟩] exDashDoc = .ok d' ∧ docTags d' = [none, none, none, none] :=
  ⟨exists_of_okAnd (by decide +kernel), exists_of_okAnd (by decide +kernel)⟩

end Verif
