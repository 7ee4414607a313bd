/-
C116: Which texts of an element are looked for. C78, C79: expressions and concatenations of the mapping.
-/
import Verif.Spec.TargetTexts
import Verif.Lemmas.JatsDoc
import Verif.Lemmas.Reload
import Verif.Props.TargetAnnotations
import Verif.Props.MatchingRanges

namespace Verif
open Spec

theorem notBlank_iff (cc : CharClass) (t : Option Str) : (!isBlank cc t) = true ↔ NotBlank cc t := by
  rw [isBlank_any, List.any_eq_true]
  unfold NotBlank
  cases t with
  | none => simp [orEmpty]
  | some s => simp [orEmpty]

/-! ## C116 Raw text -/

mutual
theorem raw_of_contains (cc : CharClass) : ∀ n : XNode, containsRawText cc n = true → HasOwnText cc n
  | .mk i t cs tl, h => by
    unfold containsRawText at h
    rw [Bool.or_eq_true, notBlank_iff] at h
    rcases h with h | h
    · exact ⟨_, .self _, .inl ⟨.inl rfl, h⟩⟩
    · rcases raw_of_children cc cs h with ⟨c, hc, ht⟩ | ⟨c, hc, hne, m, hm, hh⟩
      · exact ⟨_, .self _, .inr ⟨c, hc, ht⟩⟩
      · refine ⟨m, .child hc hm, ?_⟩
        rcases hh with ⟨hl, hx⟩ | hx
        · rcases hl with rfl | hl
          · exact .inl ⟨.inr hne, hx⟩
          · exact .inl ⟨.inr hl, hx⟩
        · exact .inr hx
theorem raw_of_children (cc : CharClass) : ∀ cs : List XNode, childrenRawText cc cs = true →
    (∃ c ∈ cs, NotBlank cc c.tail) ∨ ∃ c ∈ cs, c.children ≠ [] ∧ HasOwnText cc c
  | [], h => by cases h
  | .mk i t cs tl :: ns, h => by
    unfold childrenRawText at h
    rw [Bool.or_eq_true, Bool.or_eq_true, notBlank_iff, Bool.and_eq_true] at h
    rcases h with (h | ⟨h1, h2⟩) | h
    · exact .inl ⟨_, List.mem_cons_self, h⟩
    · refine .inr ⟨_, List.mem_cons_self, ?_, raw_of_contains cc _ h2⟩
      intro he
      have he : cs = [] := he
      subst he
      cases h1
    · rcases raw_of_children cc ns h with ⟨c, hc, h'⟩ | ⟨c, hc, h'⟩
      · exact .inl ⟨c, List.mem_cons_of_mem _ hc, h'⟩
      · exact .inr ⟨c, List.mem_cons_of_mem _ hc, h'⟩
end

theorem children_raw_iff (cc : CharClass) (cs : List XNode) : childrenRawText cc cs = true ↔
    ∃ c ∈ cs, NotBlank cc c.tail ∨ c.children ≠ [] ∧ containsRawText cc c = true := by
  induction cs with
  | nil => constructor <;> intro h <;> simp [childrenRawText] at h
  | cons c cs ih =>
    obtain ⟨i, t, ch, tl⟩ := c
    unfold childrenRawText
    rw [Bool.or_eq_true, Bool.or_eq_true, notBlank_iff, Bool.and_eq_true, ih]
    have e : ((!ch.isEmpty) = true) ↔ ch ≠ [] := by cases ch <;> simp
    rw [e]
    constructor
    · rintro ((h | h) | ⟨c, hc, h⟩)
      · exact ⟨_, List.mem_cons_self, .inl h⟩
      · exact ⟨_, List.mem_cons_self, .inr h⟩
      · exact ⟨c, List.mem_cons_of_mem _ hc, h⟩
    · rintro ⟨c, hc, h⟩
      rcases List.mem_cons.mp hc with rfl | hc
      · exact .inl h
      · exact .inr ⟨c, hc, h⟩

theorem contains_iff (cc : CharClass) (n : XNode) : containsRawText cc n = true ↔
    NotBlank cc n.text ∨ childrenRawText cc n.children = true := by
  obtain ⟨i, t, cs, tl⟩ := n
  unfold containsRawText
  rw [Bool.or_eq_true, notBlank_iff]
  rfl

theorem contains_of_within {cc : CharClass} {n m : XNode} (h : Within n m)
    (hx : (m = n ∨ m.children ≠ []) ∧ NotBlank cc m.text ∨ ∃ c ∈ m.children, NotBlank cc c.tail) : containsRawText cc n = true := by
  induction h with
  | self n =>
    rw [contains_iff]
    rcases hx with ⟨_, h⟩ | ⟨c, hc, h⟩
    · exact .inl h
    · exact .inr ((children_raw_iff cc _).mpr ⟨c, hc, .inl h⟩)
  | @child root c m hc hm ih =>
    rw [contains_iff]
    right
    rw [children_raw_iff]
    refine ⟨c, hc, .inr ?_⟩
    have hne : m = c → m.children ≠ [] → c.children ≠ [] := by rintro rfl h; exact h
    have hin : m ≠ c → c.children ≠ [] := by
      intro hne' he
      cases hm with
      | self => exact hne' rfl
      | child hc' _ => rw [he] at hc'; cases hc'
    by_cases hmc : m = c
    · subst hmc
      rcases hx with ⟨hl, h⟩ | ⟨d, hd, h⟩
      · rcases hl with rfl | hl
        · -- an element cannot be inside itself, but its own text counts anyway
          by_cases he : m.children = []
          · rw [he] at hc; cases hc
          · exact ⟨he, ih (.inl ⟨.inl rfl, h⟩)⟩
        · exact ⟨hl, ih (.inl ⟨.inl rfl, h⟩)⟩
      · exact ⟨List.ne_nil_of_mem hd, ih (.inr ⟨d, hd, h⟩)⟩
    · refine ⟨hin hmc, ih ?_⟩
      rcases hx with ⟨hl, h⟩ | h
      · rcases hl with rfl | hl
        · -- the outermost element inside one of its own children: it has children
          exact .inl ⟨.inr (List.ne_nil_of_mem hc), h⟩
        · exact .inl ⟨.inr hl, h⟩
      · exact .inr h

/-- C116: the raw text of an element counts exactly if the element has text of its own. -/
theorem C116_own_text (cc : CharClass) (n : XNode) : containsRawText cc n = true ↔ HasOwnText cc n :=
  ⟨raw_of_contains cc n, fun ⟨_, h1, h2⟩ => contains_of_within h1 h2⟩

/-- C116: the texts of an element are its raw text, without white space around it, if no expressions for its
children are given, or if the only one selects everything and the raw text is wanted; otherwise they are the texts of
its children. -/
theorem C116_texts (env : TargetEnv) (cfg : FieldCfg) (e : XNode) :
    ((cfg.children = none ∨ cfg.children = some [] ∨ cfg.children = some [c!".//*"] ∧ WantsRaw env.cc cfg e) →
      ∃ raw, raw = strip env.cc (rawTextContent env.cc (((cfg.ignore.getD []).flatMap (env.xpath e)).map (·.id)) e) ∧
        elementTexts env cfg e = .ok (if raw = [] then [] else [raw], [])) ∧
    (∀ x xs, cfg.children = some (x :: xs) → (x :: xs ≠ [c!".//*"] ∨ ¬ WantsRaw env.cc cfg e) →
      elementTexts env cfg e = extractChildTexts env e cfg) := by
  have hraw : (cfg.useRawText.getD (containsRawText env.cc e)) = true ↔ WantsRaw env.cc cfg e := by
    unfold WantsRaw
    cases hu : cfg.useRawText with
    | none => simp [C116_own_text]
    | some b => simp
  have hf : ∀ r : Str, filterTruthy [r] = if r = [] then [] else [r] := by
    intro r
    unfold filterTruthy
    cases r <;> simp
  constructor
  · intro h
    refine ⟨_, rfl, ?_⟩
    unfold elementTexts
    simp only
    rw [if_neg, hf]
    · rfl
    · rintro ⟨h1, h2⟩
      rcases h with h | h | ⟨h, hw⟩
      · rw [h] at h1; cases h1
      · rw [h] at h1; cases h1
      · rcases h2 with h2 | h2
        · exact h2 h
        · rw [hraw.mpr hw] at h2; cases h2
  · intro x xs hc h
    unfold elementTexts
    simp only
    rw [if_pos]
    rw [hc]
    refine ⟨rfl, ?_⟩
    rcases h with h | h
    · exact .inl (fun he => h (Option.some.inj he))
    · right
      rcases Bool.eq_false_or_eq_true (cfg.useRawText.getD (containsRawText env.cc e)) with h' | h'
      · exact absurd (hraw.mp h') h
      · exact h'

/-! ## C116 Patterns -/

/-- C116: without patterns the texts are not changed. -/
theorem C116_no_patterns (env : TargetEnv) (cfg : FieldCfg) (texts : List Str) (h1 : cfg.regex = none ∨ cfg.regex = some [])
    (h2 : cfg.extractRegex = none ∨ cfg.extractRegex = some []) : applyPatterns env cfg texts = texts := by
  unfold applyPatterns
  have e1 : truthy cfg.regex = false := by rcases h1 with h | h <;> rw [h] <;> rfl
  have e2 : truthy cfg.extractRegex = false := by rcases h2 with h | h <;> rw [h] <;> rfl
  simp [e1, e2]

/-- C116: a pattern replaces every text it matches by its first group and keeps the others; nothing empty is left. -/
theorem C116_pattern (env : TargetEnv) (cfg : FieldCfg) (texts : List Str) (p : Str) (hp : p ≠ []) (h1 : cfg.regex = some p)
    (h2 : cfg.extractRegex = none ∨ cfg.extractRegex = some []) (t : Str) :
    t ∈ applyPatterns env cfg texts ↔ t ≠ [] ∧ ∃ s ∈ texts, PatternLeaves env p s t := by
  unfold applyPatterns
  have e1 : truthy (some p) = true := by cases p with | nil => exact absurd rfl hp | cons => rfl
  have e2 : truthy cfg.extractRegex = false := by rcases h2 with h | h <;> rw [h] <;> rfl
  simp only [h1, e1, e2, if_true]
  rw [if_neg (by simp)]
  unfold filterTruthy
  rw [List.mem_filter, List.mem_map]
  simp only [orEmpty]
  have hap : ∀ s, applyPattern env p s = t ↔ PatternLeaves env p s t := by
    intro s
    unfold applyPattern PatternLeaves
    cases hm : env.reMatch p s with
    | none => simp [eq_comm]
    | some g => cases g <;> simp [orEmpty, eq_comm]
  constructor
  · rintro ⟨⟨s, hs, hh⟩, hne⟩
    exact ⟨by cases t with | nil => cases hne | cons => exact List.cons_ne_nil _ _, s, hs, (hap s).mp hh⟩
  · rintro ⟨hne, s, hs, hh⟩
    exact ⟨⟨s, hs, (hap s).mpr hh⟩, by cases t with | nil => exact absurd rfl hne | cons => rfl⟩

/-- C116: a pattern of parts replaces every text by the parts found; a text that would be replaced by an empty text
only is left out. -/
theorem C116_parts (env : TargetEnv) (cfg : FieldCfg) (texts : List Str) (p : Str) (hp : p ≠ []) (h1 : cfg.regex = none ∨ cfg.regex = some [])
    (h2 : cfg.extractRegex = some p) (t : Str) :
    t ∈ applyPatterns env cfg texts ↔ ∃ s ∈ texts, t ∈ extractUsingRegex env.cc s (env.reSpans p s) ∧
      extractUsingRegex env.cc s (env.reSpans p s) ≠ [[]] := by
  unfold applyPatterns
  have e2 : truthy (some p) = true := by cases p with | nil => exact absurd rfl hp | cons => rfl
  have e1 : truthy cfg.regex = false := by rcases h1 with h | h <;> rw [h] <;> rfl
  simp only [h2, e1, e2, if_true]
  rw [if_neg (by simp), List.mem_flatten]
  simp only [List.mem_filter, List.mem_map, orEmpty]
  constructor
  · rintro ⟨l, ⟨⟨s, hs, rfl⟩, hne⟩, ht⟩
    exact ⟨s, hs, ht, by simpa using hne⟩
  · rintro ⟨s, hs, ht, hne⟩
    exact ⟨_, ⟨⟨s, hs, rfl⟩, by simpa using hne⟩, ht⟩

/-! ## C78 Expressions of the mapping -/

theorem strip_trimmed (cc : CharClass) (s : Str) : Trimmed cc (strip cc s) := by
  constructor
  · intro c hc
    obtain ⟨a, b, he, ha, hb⟩ := strip_decompose cc s
    unfold strip at hc
    have hl : (lstrip cc s) ≠ [] := by
      intro h0
      rw [h0] at hc; cases hc
    have hpre : rstrip cc (lstrip cc s) <+: lstrip cc s := by
      unfold rstrip
      have := List.dropWhile_suffix cc.isSpace (l := (lstrip cc s).reverse)
      have h2 := List.reverse_prefix.mpr this
      rwa [List.reverse_reverse] at h2
    obtain ⟨r, hr⟩ := hpre
    have hh : (lstrip cc s).head? = some c := by
      rw [← hr]
      cases h3 : rstrip cc (lstrip cc s) with
      | nil => rw [h3] at hc; cases hc
      | cons x xs => rw [h3] at hc; exact hc
    unfold lstrip at hh
    have := List.head?_dropWhile_not cc.isSpace s
    rw [hh] at this
    simpa using this
  · intro c hc
    unfold strip rstrip at hc
    rw [List.getLast?_reverse] at hc
    have := List.head?_dropWhile_not cc.isSpace (lstrip cc s).reverse
    rw [hc] at this
    simpa using this

/-- C78: the expressions of an entry are its lines, without white space around them; an empty entry is no entry. -/
theorem C78_expressions (cc : CharClass) (s : Option Str) :
    ((s = none ∨ s = some []) → parseXpaths cc s = none) ∧
    ∀ t, s = some t → t ≠ [] → ∃ lines, (∀ l ∈ lines, '\n' ∉ l) ∧ joinStr ['\n'] lines = strip cc t ∧
      parseXpaths cc s = some (lines.map (strip cc)) ∧ ∀ l ∈ lines.map (strip cc), Trimmed cc l := by
  constructor
  · rintro (rfl | rfl) <;> rfl
  · rintro t rfl hne
    obtain ⟨c, t, rfl⟩ : ∃ c u, t = c :: u := by
      cases t with
      | nil => exact absurd rfl hne
      | cons c u => exact ⟨c, u, rfl⟩
    refine ⟨splitOn '\n' (strip cc (c :: t)), not_mem_splitOn '\n' _, joinStr_splitOn _ _, rfl, ?_⟩
    intro l hl
    obtain ⟨x, _, rfl⟩ := List.mem_map.mp hl
    exact strip_trimmed cc x

/-- C78: the expressions, concatenations and ranges of a field are those of its entries. -/
theorem C78_entries (env : TargetEnv) (mapping : Dict Str) (k : Str) (cfg : FieldCfg) (h : fieldCfg env mapping k = .ok cfg) :
    cfg.xpaths = parseXpaths env.cc (mapping.get? k) ∧ cfg.children = parseXpaths env.cc (mapping.get? (k ++ c!".children")) ∧
    cfg.ignore = parseXpaths env.cc (mapping.get? (k ++ c!".ignore")) ∧
    (∀ s, mapping.get? (k ++ c!".children.concat") = some s → s ≠ [] → env.jsonConcat s = .ok cfg.concat) ∧
    ((mapping.get? (k ++ c!".children.concat")).getD [] = [] → cfg.concat = []) ∧
    (∀ s, mapping.get? (k ++ c!".children.range") = some s → s ≠ [] → env.jsonRange s = .ok cfg.range) ∧
    ((mapping.get? (k ++ c!".children.range")).getD [] = [] → cfg.range = []) := by
  have hj : ∀ {α : Type} (parse : Str → Except Err (List α)) (s : Option Str) (l : List α), jsonWithDefault parse s = .ok l →
      (∀ t, s = some t → t ≠ [] → parse t = .ok l) ∧ (s.getD [] = [] → l = []) := by
    intro α parse s l hh
    unfold jsonWithDefault at hh
    cases s with
    | none => cases hh; exact ⟨fun t ht => (by cases ht), fun _ => rfl⟩
    | some t =>
      cases t with
      | nil => cases hh; exact ⟨fun t ht hne => (by cases ht; exact absurd rfl hne), fun _ => rfl⟩
      | cons c t => exact ⟨fun u hu _ => (by cases hu; exact hh), fun h0 => (by cases h0)⟩
  unfold fieldCfg at h
  cases h1 : jsonWithDefault env.jsonConcat (mapping.get? (k ++ c!".children.concat")) with
  | error e => simp [h1] at h
  | ok concat =>
    cases h2 : jsonWithDefault env.jsonRange (mapping.get? (k ++ c!".children.range")) with
    | error e => simp [h1, h2] at h
    | ok range =>
      cases h3 : env.parseInt (mapping.getD (k ++ c!".priority") c!"0") with
      | error e => simp [h1, h2, h3] at h
      | ok priority =>
        simp only [h1, h2, h3] at h
        split at h
        · cases h
        · cases h
          exact ⟨rfl, rfl, rfl, (hj _ _ _ h1).1, (hj _ _ _ h1).2, (hj _ _ _ h2).1, (hj _ _ _ h2).2⟩

/-! ## C79 Concatenations -/

theorem sourceList_iff (env : TargetEnv) (parent : XNode) (srcs : List ChildSource) (parts : List Str) :
    SourceTexts env parent srcs parts ↔ ∃ used, childrenSourceList env parent srcs = some (parts, used) := by
  induction srcs generalizing parts with
  | nil =>
    constructor
    · rintro ⟨h, _⟩
      have : parts = [] := List.length_eq_zero_iff.mp h
      subst this
      exact ⟨[], rfl⟩
    · rintro ⟨used, h⟩
      cases h
      exact ⟨rfl, fun i src t h => by simp at h⟩
  | cons src srcs ih =>
    rw [childrenSourceList_cons]
    constructor
    · rintro ⟨hl, h⟩
      cases parts with
      | nil => cases hl
      | cons p parts =>
        obtain ⟨used, hu⟩ := (sourceText_iff env parent src p).mp (h 0 src p rfl rfl)
        obtain ⟨used', hu'⟩ := (ih parts).mp ⟨by simpa using hl, fun i s t h1 h2 => h (i + 1) s t h1 h2⟩
        exact ⟨used ++ used', by rw [hu]; simp only [hu']⟩
    · rintro ⟨used, h⟩
      cases h1 : sourceText env parent src with
      | none => simp [h1] at h
      | some p =>
        cases h2 : childrenSourceList env parent srcs with
        | none => simp [h1, h2] at h
        | some q =>
          simp only [h1, h2, Option.some.injEq, Prod.mk.injEq] at h
          obtain ⟨rfl, _⟩ := h
          obtain ⟨hl, hh⟩ := (ih q.1).mpr ⟨q.2, by rw [h2]⟩
          refine ⟨by simp [hl], ?_⟩
          intro i s t hs ht
          cases i with
          | zero =>
            cases hs; cases ht
            exact (sourceText_iff env parent src p.1).mpr ⟨p.2, by rw [h1]⟩
          | succ i => exact hh i s t hs ht

/-- C79: the values of concatenations are the concatenated texts of their sources, for every concatenation whose
sources all exist. -/
theorem C79_concatenations (env : TargetEnv) (parent : XNode) (items : List (List ChildSource)) (s : Str) :
    s ∈ (extractChildrenConcat env parent items).1 ↔
      ∃ item ∈ items, item ≠ [] ∧ ∃ parts, SourceTexts env parent item parts ∧ s = parts.flatten := by
  induction items with
  | nil => simp [extractChildrenConcat]
  | cons item items ih =>
    unfold extractChildrenConcat
    simp only [List.mem_append, ih]
    have key : s ∈ (if (extractChildrenSourceList env parent item).1.isEmpty then [] else [(extractChildrenSourceList env parent item).1.flatten]) ↔
        item ≠ [] ∧ ∃ parts, SourceTexts env parent item parts ∧ s = parts.flatten := by
      unfold extractChildrenSourceList
      cases h : childrenSourceList env parent item with
      | none =>
        constructor
        · intro h'; simp at h'
        · rintro ⟨_, parts, hp, _⟩
          obtain ⟨used, hu⟩ := (sourceList_iff env parent item parts).mp hp
          rw [h] at hu; cases hu
      | some q =>
        have hq : SourceTexts env parent item q.1 := (sourceList_iff env parent item q.1).mpr ⟨q.2, h⟩
        simp only [Option.getD_some]
        constructor
        · intro h'
          split at h'
          · cases h'
          · next hne =>
            rw [List.mem_singleton] at h'
            refine ⟨?_, q.1, hq, h'⟩
            rintro rfl
            have : q.1 = [] := List.length_eq_zero_iff.mp hq.1
            rw [this] at hne
            exact hne rfl
        · rintro ⟨hne, parts, hp, rfl⟩
          obtain ⟨used, hu⟩ := (sourceList_iff env parent item parts).mp hp
          rw [h] at hu
          cases hu
          rw [if_neg]
          · exact List.mem_singleton.mpr rfl
          · intro he
            have : parts = [] := List.isEmpty_iff.mp he
            subst this
            exact hne (List.length_eq_zero_iff.mp hp.1.symm)
    constructor
    · rintro (h | ⟨i, hi, h⟩)
      · exact ⟨item, List.mem_cons_self, key.mp h⟩
      · exact ⟨i, List.mem_cons_of_mem _ hi, h⟩
    · rintro ⟨i, hi, h⟩
      rcases List.mem_cons.mp hi with rfl | hi
      · exact .inl (key.mpr h)
      · exact .inr ⟨i, hi, h⟩

/-! ## C63 The text that is compared -/

/-- C63: texts are compared in lower case, with simple dashes, spaces and quotes. -/
theorem C63_compared (lower : Str → Str) (s : Str) :
    ∃ t, Substituted c!"&apos;" c!"\"" ((lower s).map plainChar) t ∧
      normaliseStr lower s = t.map (fun c => if c = '\'' then '"' else c) := by
  refine ⟨_, substituted_replaceAll c!"&apos;" c!"\"" (by decide) _, ?_⟩
  unfold normaliseStr
  rw [replaceAll_char, replaceAll_char, replaceAll_char, replaceAll_char, List.map_map, List.map_map]
  congr 3
  funext c
  simp only [Function.comp, plainChar]
  by_cases h1 : c = '\u2014'
  · subst h1; decide
  · by_cases h2 : c = '\u2013'
    · subst h2; decide
    · simp [h1, h2]

/-! ### Examples -/

/-- An element with text only inside of its children, and one with text between them. -/
example : HasOwnText asciiClass (.mk 1 none [.mk 2 (some c!"a") [] (some c!", "), .mk 3 (some c!"b") [] none] none) ∧
    ¬ HasOwnText asciiClass (.mk 1 (some c!" ") [.mk 2 (some c!"a") [] (some c!" "), .mk 3 (some c!"b") [] none] none) :=
  ⟨(C116_own_text _ _).mp (by decide +kernel), fun h => absurd ((C116_own_text _ _).mpr h) (by decide +kernel)⟩

example : normaliseStr (fun s => s.map Char.toLower) c!"A – &apos;B—C'" = c!"a - \"b-c\"" := by decide +kernel

/-- Non-vacuity of `C79_concatenations` and `C116_parts`. -/
example : (extractChildrenConcat targetExampleEnv targetExampleRoot [[{ xpath := some c!"title" }, { value := some c!"-" }]]).1 = [c!"A title-"] ∧
    parseXpaths asciiClass (some c!"\n a/b \n c ") = some [c!"a/b", c!"c"] := by decide +kernel

end Verif
