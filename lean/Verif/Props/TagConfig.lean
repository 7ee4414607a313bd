/-
C101: options of the fields in the XML mapping.
-/
import Verif.Lemmas.TagConfig
import Verif.Lemmas.Ok

namespace Verif

open Spec

theorem strtobool_iff (lower : Str → Str) (v : Str) (b : Bool) :
    strtobool lower v = .ok b ↔ (b = true ∧ lower v ∈ yesTexts ∨ b = false ∧ lower v ∈ noTexts) := by
  unfold strtobool
  change (if lower v ∈ yesTexts then Except.ok true else if lower v ∈ noTexts then Except.ok false
    else Except.error Err.valueError) = .ok b ↔ _
  have hdis : ∀ x ∈ yesTexts, x ∉ noTexts := by decide
  split
  · next h =>
    have := hdis _ h
    cases b <;> simp [h, this]
  · next h =>
    split
    · next h' => cases b <;> simp [h, h']
    · next h' => cases b <;> simp [h, h']

theorem strtobool_error (lower : Str → Str) (v : Str) :
    (∃ e, strtobool lower v = .error e) ↔ lower v ∉ yesTexts ∧ lower v ∉ noTexts := by
  cases h : strtobool lower v with
  | ok b =>
    have := (strtobool_iff lower v b).mp h
    simp only [reduceCtorEq, exists_false, false_iff]
    rintro ⟨h1, h2⟩
    rcases this with ⟨_, h3⟩ | ⟨_, h3⟩
    · exact h1 h3
    · exact h2 h3
  | error e =>
    refine ⟨fun _ => ⟨fun h1 => ?_, fun h1 => ?_⟩, fun _ => ⟨e, rfl⟩⟩
    · rw [(strtobool_iff lower v true).mpr (.inl ⟨rfl, h1⟩)] at h; cases h
    · rw [(strtobool_iff lower v false).mpr (.inr ⟨rfl, h1⟩)] at h; cases h

theorem unquoted_iff (v r : Str) :
    Unquoted v r ↔
      r = if 2 ≤ v.length ∧ v.head? = some '"' ∧ v.getLast? = some '"' then (v.drop 1).dropLast else v := by
  by_cases h : ∃ r', v = '"' :: r' ++ ['"']
  · obtain ⟨r', rfl⟩ := h
    rw [if_pos ⟨by simp, rfl, by rw [List.getLast?_append]; rfl⟩]
    have : ((('"' :: r' ++ ['"']).drop 1).dropLast) = r' := by simp
    rw [this]
    constructor
    · intro hu
      generalize hv : '"' :: r' ++ ['"'] = v at hu
      cases hu with
      | quoted r => simpa using hv.symm
      | plain r hn => exact absurd hv.symm (hn r')
    · rintro rfl; exact .quoted _
  · have hn : ∀ r', v ≠ '"' :: r' ++ ['"'] := fun r' hr => h ⟨r', hr⟩
    rw [if_neg]
    · constructor
      · intro hu
        cases hu with
        | quoted => exact absurd rfl (hn r)
        | plain => rfl
      · rintro rfl; exact .plain _ hn
    · rintro ⟨h1, h2, h3⟩
      cases v with
      | nil => simp at h2
      | cons c v =>
        simp only [List.head?_cons, Option.some.injEq] at h2
        subst h2
        rcases List.eq_nil_or_concat v with rfl | ⟨w, x, rfl⟩
        · simp at h1
        · simp only [List.concat_eq_append] at h3
          rw [← List.cons_append, List.getLast?_append] at h3
          simp only [List.getLast?_singleton, Option.some.injEq, Option.some_or] at h3
          subst h3
          exact hn w (by simp)

theorem parseRegex_cons (env : TagConfigEnv) (c : Char) (v : Str) :
    ∃ w, Unquoted (c :: v) w ∧
      parseRegex env (some (c :: v)) = if env.validRegex w then .ok (some w) else .error .exception :=
  ⟨_, (unquoted_iff _ _).mpr rfl, rfl⟩

theorem parseRegex_ok (env : TagConfigEnv) (s r : Option Str) (h : parseRegex env s = .ok r) :
    (s = none ∧ r = none) ∨ (s = some [] ∧ r = some []) ∨
      ∃ v w, s = some v ∧ v ≠ [] ∧ r = some w ∧ Unquoted v w ∧ env.validRegex w = true := by
  unfold parseRegex at h
  cases s with
  | none => left; simp [truthy] at h; exact ⟨rfl, h.symm⟩
  | some v =>
    right
    cases v with
    | nil => left; simp [truthy] at h; exact ⟨rfl, h.symm⟩
    | cons c v =>
      right
      obtain ⟨w, hw, he⟩ := parseRegex_cons env c v
      change parseRegex env (some (c :: v)) = _ at h
      rw [he] at h
      by_cases hv : env.validRegex w = true
      · rw [if_pos hv] at h
        cases h
        exact ⟨_, _, rfl, by simp, rfl, hw, hv⟩
      · rw [if_neg hv] at h
        cases h

theorem parseRegex_error (env : TagConfigEnv) (s : Option Str) :
    (∃ e, parseRegex env s = .error e) ↔ ∃ v r, s = some v ∧ v ≠ [] ∧ Unquoted v r ∧ env.validRegex r = false := by
  cases h : parseRegex env s with
  | ok r =>
    simp only [reduceCtorEq, exists_false, false_iff]
    rintro ⟨v, w, rfl, hne, hu, hv⟩
    rcases parseRegex_ok env _ _ h with ⟨h1, _⟩ | ⟨h1, _⟩ | ⟨v', w', h1, _, _, hu', hv'⟩
    · cases h1
    · exact hne (by simpa using h1)
    · cases h1
      rw [(unquoted_iff _ _).mp hu, ← (unquoted_iff _ _).mp hu', hv'] at hv
      cases hv
  | error e =>
    refine ⟨fun _ => ?_, fun _ => ⟨e, rfl⟩⟩
    unfold parseRegex at h
    cases s with
    | none => simp [truthy] at h
    | some v =>
      cases v with
      | nil => simp [truthy] at h
      | cons c v =>
        obtain ⟨w, hw, he⟩ := parseRegex_cons env c v
        change parseRegex env (some (c :: v)) = _ at h
        rw [he] at h
        by_cases hv : env.validRegex w = true
        · rw [if_pos hv] at h; cases h
        · exact ⟨_, _, rfl, by simp, hw, by simpa using hv⟩

theorem parseAlternativeSpellings_error (env : TagConfigEnv) (s : Option Str) :
    (∃ e, parseAlternativeSpellings env s = .error e) ↔
      ∃ v lines line, s = some v ∧ IsLines v lines ∧ line ∈ lines ∧ BadLine env.cc line := by
  have key : ∀ v, (∃ e, parseAlternativeSpellings env (some v) = .error e) ↔
      ∃ line ∈ splitLines v, BadLine env.cc line := by
    intro v
    unfold parseAlternativeSpellings
    cases v with
    | nil => simp [truthy, splitLines, splitLinesFrom]
    | cons c v =>
      have : (!truthy (some (c :: v))) = false := by simp [truthy]
      rw [this]
      exact spellingLines_error env _ _
  cases s with
  | none => simp [parseAlternativeSpellings, truthy]
  | some v =>
    rw [key]
    constructor
    · rintro ⟨line, h1, h2⟩
      exact ⟨v, splitLines v, line, rfl, isLines_splitLines v, h1, h2⟩
    · rintro ⟨v', lines, line, h1, h2, h3, h4⟩
      cases h1
      rw [isLines_unique h2] at h3
      exact ⟨line, h3, h4⟩

theorem tagConfigs_ok (env : TagConfigEnv) (config : Dict Str) (fs : List Str) (m : Dict TagConfig)
    (h : tagConfigs env config fs = .ok m) :
    m.map Prod.fst = fs ∧ ∀ f c, m.get? f = some c → f ∈ fs ∧ getSimpleTagConfig env config f = .ok c := by
  induction fs generalizing m with
  | nil =>
    simp only [tagConfigs, Except.ok.injEq] at h
    subst h
    exact ⟨rfl, fun f c hc => by simp [Dict.get?] at hc⟩
  | cons f fs ih =>
    unfold tagConfigs at h
    cases h1 : getSimpleTagConfig env config f with
    | error e => simp [h1] at h
    | ok c =>
      simp only [h1] at h
      cases h2 : tagConfigs env config fs with
      | error e => simp [h2] at h
      | ok cs =>
        simp only [h2, Except.ok.injEq] at h
        subst h
        obtain ⟨i1, i2⟩ := ih _ h2
        refine ⟨by simp [i1], ?_⟩
        intro g c' hg
        rw [Dict.get?] at hg
        by_cases hfg : f = g
        · subst hfg
          simp only [if_pos, Option.some.injEq] at hg
          subst hg
          exact ⟨by simp, h1⟩
        · simp only [hfg, if_false] at hg
          obtain ⟨j1, j2⟩ := i2 g c' hg
          exact ⟨by simp [j1], j2⟩

theorem tagConfigs_error (env : TagConfigEnv) (config : Dict Str) (fs : List Str) :
    (∃ e, tagConfigs env config fs = .error e) ↔ ∃ f ∈ fs, ∃ e, getSimpleTagConfig env config f = .error e := by
  induction fs with
  | nil => simp [tagConfigs]
  | cons f fs ih =>
    unfold tagConfigs
    cases h1 : getSimpleTagConfig env config f with
    | error e =>
      simp only [Except.error.injEq, exists_eq', true_iff]
      exact ⟨f, by simp, e, h1⟩
    | ok c =>
      have : (∃ f' ∈ f :: fs, ∃ e, getSimpleTagConfig env config f' = .error e) ↔
          ∃ f' ∈ fs, ∃ e, getSimpleTagConfig env config f' = .error e := by
        simp [h1]
      rw [this, ← ih]
      cases tagConfigs env config fs <;> simp

theorem mem_configFields (mapping : Dict (Dict Str)) (f : Str) : f ∈ configFields mapping ↔ IsField mapping f := by
  unfold configFields IsField
  rw [List.mem_eraseDups, List.mem_filter, List.mem_flatMap]
  simp only [List.mem_map, Bool.not_eq_true', List.contains_eq_mem, decide_eq_false_iff_not, Prod.exists, exists_and_right,
    exists_eq_right]
  constructor
  · rintro ⟨⟨a, b, h1, v, h2⟩, h3⟩; exact ⟨h3, a, b, h1, v, h2⟩
  · rintro ⟨h3, a, b, h1, v, h2⟩; exact ⟨⟨a, b, h1, v, h2⟩, h3⟩

theorem getD_flatConfig (mapping : Dict (Dict Str)) (k v : Str) :
    (flatConfig mapping).getD k v = (given mapping k).getD v := by
  unfold Dict.getD; rw [get?_flatConfig]

/-- C101: there are options for exactly the keys without a dot, whatever the section. -/
theorem C101_fields (env : TagConfigEnv) (mapping : Dict (Dict Str)) (m : Dict TagConfig)
    (h : getSimpleTagConfigMap env mapping = .ok m) (f : Str) : (∃ c, m.get? f = some c) ↔ IsField mapping f := by
  obtain ⟨h1, h2⟩ := tagConfigs_ok _ _ _ _ h
  rw [← mem_configFields, ← h1]
  clear h h1 h2
  induction m with
  | nil => simp [Dict.get?]
  | cons p m ih =>
    rw [Dict.get?]
    by_cases hp : p.1 = f
    · simp [hp]
    · simp only [hp, if_false, ih, List.map_cons, List.mem_cons, Ne.symm hp, false_or]

/-- C101: the options of a field are those given last for it, with the documented defaults. -/
theorem C101_options (env : TagConfigEnv) (hd : Defaults env) (mapping : Dict (Dict Str)) (m : Dict TagConfig)
    (h : getSimpleTagConfigMap env mapping = .ok m) (f : Str) (c : TagConfig) (hc : m.get? f = some c) :
    (given mapping (f ++ c!".match-prefix-regex") = none → c.matchPrefixRegex = none) ∧
    (∀ v, given mapping (f ++ c!".match-prefix-regex") = some v →
      ∃ r, c.matchPrefixRegex = some r ∧ Unquoted v r ∧ (v ≠ [] → env.validRegex r = true)) ∧
    (∀ k vs, c.alternativeSpellings.get? k = some vs ↔
      ∃ v pre line post, given mapping (f ++ c!".alternative-spellings") = some v ∧ IsLines v (pre ++ line :: post) ∧
        SpellingLine env.cc line k vs ∧ ∀ l ∈ post, ∀ vs', ¬ SpellingLine env.cc l k vs') ∧
    Switch env.lower (given mapping (f ++ c!".merge")) c.mergeEnabled ∧
    Switch env.lower (given mapping (f ++ c!".extend-to-line")) c.extendToLineEnabled ∧
    (given mapping (f ++ c!".max_chunks") = none → c.maxChunks = 1) ∧
    (∀ v, given mapping (f ++ c!".max_chunks") = some v → env.parseInt v = some c.maxChunks) ∧
    c.blockName = given mapping (f ++ c!".block") := by
  have hg := ((tagConfigs_ok _ _ _ _ h).2 f c hc).2
  have hk : ∀ o, optionKey f o = f ++ (c!"." ++ o) := fun o => by simp [optionKey]
  unfold getSimpleTagConfig at hg
  simp only [hk, getD_flatConfig, get?_flatConfig] at hg
  split at hg
  · cases hg
  next regex hr =>
  split at hg
  · cases hg
  next sp hs =>
  split at hg
  · cases hg
  next me hm =>
  split at hg
  · cases hg
  next ex hx =>
  split at hg
  · cases hg
  next n hn =>
  cases hg
  have hsw : ∀ (o : Option Str) (b : Bool), strtobool env.lower (o.getD c!"True") = .ok b → Switch env.lower o b := by
    intro o b hb
    cases o with
    | none =>
      left
      refine ⟨rfl, ?_⟩
      rcases (strtobool_iff _ _ _).mp hb with ⟨h1, _⟩ | ⟨_, h2⟩
      · exact h1
      · exfalso
        revert h2
        simp only [Option.getD_none, hd.lower]
        decide
    | some v => exact .inr ⟨v, rfl, (strtobool_iff _ _ _).mp hb⟩
  refine ⟨?_, ?_, ?_, hsw _ _ hm, hsw _ _ hx, ?_, ?_, rfl⟩
  · intro h0
    rcases parseRegex_ok _ _ _ hr with ⟨_, h1⟩ | ⟨h1, _⟩ | ⟨v, w, h1, _⟩
    · exact h1
    · rw [show (f ++ (c!"." ++ c!"match-prefix-regex")) = f ++ c!".match-prefix-regex" from rfl, h0] at h1; cases h1
    · rw [show (f ++ (c!"." ++ c!"match-prefix-regex")) = f ++ c!".match-prefix-regex" from rfl, h0] at h1; cases h1
  · intro v h0
    have hr' := parseRegex_ok _ _ _ hr
    rw [show (f ++ (c!"." ++ c!"match-prefix-regex")) = f ++ c!".match-prefix-regex" from rfl, h0] at hr'
    rcases hr' with ⟨h1, _⟩ | ⟨h1, h2⟩ | ⟨v', w, h1, _, h3, h4, h5⟩
    · cases h1
    · cases h1
      exact ⟨[], h2, .plain _ (by simp), fun h => absurd rfl h⟩
    · cases h1
      exact ⟨w, h3, h4, fun _ => h5⟩
  · intro k vs
    change sp.get? k = some vs ↔ _
    have hs' : parseAlternativeSpellings env (given mapping (f ++ c!".alternative-spellings")) = .ok sp := hs
    cases hv : given mapping (f ++ c!".alternative-spellings") with
    | none =>
      rw [hv] at hs'
      simp only [parseAlternativeSpellings, truthy] at hs'
      cases hs'
      simp [Dict.get?]
    | some v =>
      rw [hv] at hs'
      have hs2 : spellingLines env [] (splitLines v) = .ok sp := by
        cases v with
        | nil => simpa [parseAlternativeSpellings, truthy, splitLines, splitLinesFrom, spellingLines] using hs'
        | cons x v => simpa [parseAlternativeSpellings, truthy] using hs'
      rw [spellingLines_get? env _ _ _ hs2]
      constructor
      · rintro (⟨pre, line, post, h1, h2, h3⟩ | ⟨h1, _⟩)
        · exact ⟨v, pre, line, post, rfl, h1 ▸ isLines_splitLines v, h2, h3⟩
        · simp [Dict.get?] at h1
      · rintro ⟨v', pre, line, post, h0, h1, h2, h3⟩
        cases h0
        exact .inl ⟨pre, line, post, (isLines_unique h1).symm, h2, h3⟩
  · intro h0
    have hn' : env.parseInt ((given mapping (f ++ c!".max_chunks")).getD c!"1") = some n := hn
    rw [h0, Option.getD_none, hd.parseInt] at hn'
    exact (Option.some.inj hn').symm
  · intro v h0
    have hn' : env.parseInt ((given mapping (f ++ c!".max_chunks")).getD c!"1") = some n := hn
    rw [h0] at hn'
    exact hn'

/-- C101: the mapping is refused exactly if an option of one of the fields cannot be used. Options
of names that are not fields are not looked at. -/
theorem C101_errors (env : TagConfigEnv) (hd : Defaults env) (mapping : Dict (Dict Str)) :
    (∃ e, getSimpleTagConfigMap env mapping = .error e) ↔ ∃ f, IsField mapping f ∧ BadOption env mapping f := by
  unfold getSimpleTagConfigMap
  rw [tagConfigs_error]
  have hk : ∀ f o, optionKey f o = f ++ (c!"." ++ o) := fun f o => by simp [optionKey]
  have hsw : ∀ o : Option Str, (∃ e, strtobool env.lower (o.getD c!"True") = .error e) ↔
      ∃ v, o = some v ∧ env.lower v ∉ yesTexts ∧ env.lower v ∉ noTexts := by
    intro o
    rw [strtobool_error]
    cases o with
    | none =>
      simp only [Option.getD_none, hd.lower]
      constructor
      · rintro ⟨h1, _⟩; exact absurd (by decide) h1
      · rintro ⟨v, h, _⟩; cases h
    | some v => simp
  have key : ∀ f, (∃ e, getSimpleTagConfig env (flatConfig mapping) f = .error e) ↔ BadOption env mapping f := by
    intro f
    have e1 : (∃ e, parseRegex env (given mapping (f ++ c!".match-prefix-regex")) = .error e) → BadOption env mapping f := by
      rw [parseRegex_error]; rintro ⟨v, r, h1, h2, h3, h4⟩; exact .regex v r h1 h2 h3 h4
    have e2 : (∃ e, parseAlternativeSpellings env (given mapping (f ++ c!".alternative-spellings")) = .error e) →
        BadOption env mapping f := by
      rw [parseAlternativeSpellings_error]; rintro ⟨v, ls, l, h1, h2, h3, h4⟩; exact .spellings v l ls h1 h2 h3 h4
    constructor
    · rintro ⟨e, hg⟩
      unfold getSimpleTagConfig at hg
      simp only [hk, getD_flatConfig, get?_flatConfig] at hg
      split at hg
      · next e hr => exact e1 ⟨e, hr⟩
      split at hg
      · next e hr => exact e2 ⟨e, hr⟩
      split at hg
      · next e hr => obtain ⟨v, h1, h2, h3⟩ := (hsw _).mp ⟨e, hr⟩; exact .merge v h1 h2 h3
      split at hg
      · next e hr => obtain ⟨v, h1, h2, h3⟩ := (hsw _).mp ⟨e, hr⟩; exact .extend v h1 h2 h3
      split at hg
      · next hr =>
        cases hv : given mapping (f ++ c!".max_chunks") with
        | none =>
          have hr' : env.parseInt ((given mapping (f ++ c!".max_chunks")).getD c!"1") = none := hr
          rw [hv, Option.getD_none, hd.parseInt] at hr'
          cases hr'
        | some v =>
          have hr' : env.parseInt ((given mapping (f ++ c!".max_chunks")).getD c!"1") = none := hr
          rw [hv] at hr'
          exact .maxChunks v hv hr'
      · cases hg
    · intro hb
      cases hg : getSimpleTagConfig env (flatConfig mapping) f with
      | error e => exact ⟨e, rfl⟩
      | ok c =>
        exfalso
        unfold getSimpleTagConfig at hg
        simp only [hk, getD_flatConfig, get?_flatConfig] at hg
        split at hg
        · cases hg
        next regex hr =>
        split at hg
        · cases hg
        next sp hs =>
        split at hg
        · cases hg
        next me hm =>
        split at hg
        · cases hg
        next ex hx =>
        split at hg
        · cases hg
        next n hn =>
        cases hb with
        | regex v r h1 h2 h3 h4 =>
          obtain ⟨e, he⟩ := (parseRegex_error env (given mapping (f ++ c!".match-prefix-regex"))).mpr ⟨v, r, h1, h2, h3, h4⟩
          exact absurd (he.symm.trans hr) (by simp)
        | spellings v l ls h1 h2 h3 h4 =>
          obtain ⟨e, he⟩ := (parseAlternativeSpellings_error env
            (given mapping (f ++ c!".alternative-spellings"))).mpr ⟨v, ls, l, h1, h2, h3, h4⟩
          exact absurd (he.symm.trans hs) (by simp)
        | merge v h1 h2 h3 =>
          obtain ⟨e, he⟩ := (hsw (given mapping (f ++ c!".merge"))).mpr ⟨v, h1, h2, h3⟩
          exact absurd (he.symm.trans hm) (by simp)
        | extend v h1 h2 h3 =>
          obtain ⟨e, he⟩ := (hsw (given mapping (f ++ c!".extend-to-line"))).mpr ⟨v, h1, h2, h3⟩
          exact absurd (he.symm.trans hx) (by simp)
        | maxChunks v h1 h2 =>
          have hn' : env.parseInt ((given mapping (f ++ c!".max_chunks")).getD c!"1") = some n := hn
          rw [h1, Option.getD_some, h2] at hn'
          cases hn'
  constructor
  · rintro ⟨f, h1, h2⟩; exact ⟨f, (mem_configFields ..).mp h1, (key f).mp h2⟩
  · rintro ⟨f, h1, h2⟩; exact ⟨f, (mem_configFields ..).mpr h1, (key f).mpr h2⟩

/-- C101: the options of a field depend on the options given for this field only. -/
theorem C101_independent (env : TagConfigEnv) (mapping mapping' : Dict (Dict Str)) (m m' : Dict TagConfig)
    (h : getSimpleTagConfigMap env mapping = .ok m) (h' : getSimpleTagConfigMap env mapping' = .ok m') (f : Str)
    (hf : IsField mapping f) (hf' : IsField mapping' f)
    (heq : ∀ o ∈ [c!"match-prefix-regex", c!"alternative-spellings", c!"merge", c!"extend-to-line", c!"max_chunks", c!"block"],
      given mapping (f ++ '.' :: o) = given mapping' (f ++ '.' :: o)) : m.get? f = m'.get? f := by
  obtain ⟨c, hc⟩ := (C101_fields env mapping m h f).mpr hf
  obtain ⟨c', hc'⟩ := (C101_fields env mapping' m' h' f).mpr hf'
  have hg := ((tagConfigs_ok _ _ _ _ h).2 f c hc).2
  have hg' := ((tagConfigs_ok _ _ _ _ h').2 f c' hc').2
  have hk : ∀ o, optionKey f o = f ++ '.' :: o := fun o => by simp [optionKey]
  unfold getSimpleTagConfig at hg hg'
  simp only [hk, getD_flatConfig, get?_flatConfig] at hg hg'
  have q : ∀ o, o ∈ [c!"match-prefix-regex", c!"alternative-spellings", c!"merge", c!"extend-to-line", c!"max_chunks",
      c!"block"] → given mapping (f ++ '.' :: o) = given mapping' (f ++ '.' :: o) := heq
  rw [q _ (by decide), q c!"alternative-spellings" (by decide), q c!"merge" (by decide),
    q c!"extend-to-line" (by decide), q c!"max_chunks" (by decide), q c!"block" (by decide), hg'] at hg
  cases hg
  rw [hc, hc']

/-! ### Examples -/

/-- An environment for examples: ASCII, and expressions without an unclosed bracket. -/
def exTagEnv : TagConfigEnv where
  cc := asciiClass
  lower := fun s => s.map Char.toLower
  parseInt := fun s => if s.all Char.isDigit ∧ s ≠ [] then some (s.foldl (fun n c => 10 * n + (c.toNat - 48)) 0) else none
  validRegex := fun s => !s.contains '('

def exTagMapping : Dict (Dict Str) :=
  [(c!"article", [(c!"title", c!"front//article-title"), (c!"title.match-prefix-regex", c!"\"^Title: \""),
      (c!"title.merge", c!"Off"), (c!"title.alternative-spellings", c!"one = 1, first\n\n two=2\none=uno"),
      (c!"author", c!"front//contrib"), (c!"author.max_chunks", c!"3"), (c!"author.block", c!"authors"),
      (c!"other.max_chunks", c!"many")])]

example : Defaults exTagEnv := ⟨by decide, by decide⟩

example : okAnd (getSimpleTagConfigMap exTagEnv exTagMapping) (fun m =>
    m.map Prod.fst = [c!"title", c!"author"] ∧
    (m.get? c!"title").map (·.matchPrefixRegex) = some (some c!"^Title: ") ∧
    (m.get? c!"title").map (·.mergeEnabled) = some false ∧
    (m.get? c!"title").map (·.extendToLineEnabled) = some true ∧
    (m.get? c!"title").map (·.alternativeSpellings) = some [(c!"one", [c!"uno"]), (c!"two", [c!"2"])] ∧
    (m.get? c!"author").map (·.maxChunks) = some 3 ∧
    (m.get? c!"author").map (·.blockName) = some (some c!"authors")) := by
  decide +kernel

example : BadOption exTagEnv [(c!"article", [(c!"title", c!"t"), (c!"title.max_chunks", c!"many")])] c!"title" :=
  .maxChunks c!"many" (by decide +kernel) (by decide +kernel)

/-- The line boundaries of `str.splitlines`. -/
example : (∀ n ∈ [0x0a, 0x0b, 0x0c, 0x0d, 0x1c, 0x1d, 0x1e, 0x85, 0x2028, 0x2029],
      splitLines ['a', Char.ofNat n, 'b'] = [['a'], ['b']]) ∧
    splitLines ['a', '\t', 'b'] = [['a', '\t', 'b']] ∧ splitLines ['a', '\r', '\n', 'b', '\n'] = [['a'], ['b']] ∧
    splitLines ['\n', '\r', 'b'] = [[], [], ['b']] := by
  decide +kernel

/-- White space after a comma belongs to the spelling. -/
example : SpellingLine asciiClass c!" one = 1, first " c!"one" [c!"1", c!" first"] :=
  ⟨c!"one ", c!" 1, first", by decide +kernel, by decide, by decide +kernel, by decide, by decide, by decide +kernel⟩

/-- C101: the options of a field also come from the sections for other kinds of documents, although
only the section of the root element says what the field is. -/
theorem C101_other_sections : ∃ (env : TagConfigEnv) (section_ other : Str × Dict Str) (m m' : Dict TagConfig) (f : Str),
    section_.1 ≠ other.1 ∧ getSimpleTagConfigMap env [section_] = .ok m ∧
      getSimpleTagConfigMap env [section_, other] = .ok m' ∧
      (m.get? f).map (·.mergeEnabled) = some true ∧ (m'.get? f).map (·.mergeEnabled) = some false := by
  obtain ⟨m, h1, h2⟩ := exists_of_okAnd (x := getSimpleTagConfigMap exTagEnv [(c!"article", [(c!"title", c!"t")])])
    (p := fun m => (m.get? c!"title").map (·.mergeEnabled) = some true) (by decide +kernel)
  obtain ⟨m', h3, h4⟩ := exists_of_okAnd (x := getSimpleTagConfigMap exTagEnv
      [(c!"article", [(c!"title", c!"t")]), (c!"book", [(c!"title.merge", c!"no")])])
    (p := fun m => (m.get? c!"title").map (·.mergeEnabled) = some false) (by decide +kernel)
  exact ⟨exTagEnv, _, (c!"book", [(c!"title.merge", c!"no")]), m, m', c!"title", by decide, h1, h3, h2, h4⟩

end Verif
