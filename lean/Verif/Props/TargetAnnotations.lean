/-
C46, C75, C76, C77: target annotations.
-/
import Verif.Lemmas.TargetAnnotations
import Verif.Lemmas.Ok

namespace Verif

open Spec

/-- C46: the result consists of everything found for the fields of the mapping (keys without a
dot), nothing dropped or duplicated, ordered by descending priority, then by the position of the
element in the document, ties in order of discovery; a value made of several texts has them
longest first. -/
theorem C46_order (env : TargetEnv) (xmlMapping : Dict (Dict Str)) (rootTag : Str) (root : XNode) (res : List TargetItem)
    (h : xmlRootToTargetAnnotations env xmlMapping rootTag root = .ok res) :
    ∃ mapping found out, xmlMapping.get? rootTag = some mapping ∧
      FoundIn env mapping root ((mapping.map (·.1)).filter (fun k => '.' ∉ k)) found ∧
      StablySorted Found.before found out ∧ res = out.map (·.item) := by
  unfold xmlRootToTargetAnnotations at h
  cases hm : xmlMapping.get? rootTag with
  | none => simp [hm] at h
  | some mapping =>
    simp only [hm] at h
    cases hf : fieldsAnnotations env mapping root (fun n => (nodeIds root).idxOf n.id)
        ((mapping.map (·.1)).filter (fun k => '.' ∉ k)) with
    | error x => rw [hf] at h; cases h
    | ok as =>
      simp only [hf] at h
      cases h
      refine ⟨mapping, as.map toFound, sortBy Found.before (as.map toFound), rfl, fieldsAnnotations_found hf,
        stablySorted_sortBy _ before_total before_trans _, ?_⟩
      rw [← map_sortBy toFound (fun a b => TargetKey.le a.1 b.1) Found.before before_toFound, List.map_map]
      rfl

/-- C46: the positions used are positions in document order. -/
theorem C46_document_order (root a b : XNode) (hnd : (nodeIds root).Nodup) (h : StartsBefore root a b) :
    (nodeIds root).idxOf a.id < (nodeIds root).idxOf b.id := idxOf_startsBefore hnd h

/-- C46: a document whose root element is not in the mapping is an error (an `AttributeError`, raised while the
message is put together). -/
theorem C46_unknown_root (env : TargetEnv) (xmlMapping : Dict (Dict Str)) (rootTag : Str) (root : XNode)
    (h : xmlMapping.get? rootTag = none) : xmlRootToTargetAnnotations env xmlMapping rootTag root = .error .attributeError := by
  unfold xmlRootToTargetAnnotations; rw [h]

/-- C75: the raw text of an element is the concatenation of its texts in document order, with
single spaces added only between two words. -/
theorem C75_raw_text (cc : CharClass) (n : XNode) : JoinedWords cc (nodeTexts n) (rawTextContent cc [] n) :=
  joinedWords_raw cc _

/-- C75: excluded elements lose their content, but the text following them is kept: up to white
space the raw text is that of the document without the content of excluded elements. -/
theorem C75_excluded (cc : CharClass) (hsp : cc.isSpace ' ' = true) (exclude : List Nat) (n : XNode) :
    nonSpace cc (rawTextContent cc exclude n) = nonSpace cc (nodeTexts (prune exclude n)).flatten := by
  unfold rawTextContent iterTextExclude
  rw [joinedWords_nonSpace hsp (joinedWords_raw cc _)]
  split
  · next he =>
    have : exclude = [] := List.isEmpty_iff.mp he
    subst this
    have hp : ∀ n : XNode, (nodeTexts n).flatten = (nodeTexts (prune [] n)).flatten ∧
        True := by
      intro n
      have hid : (∀ n : XNode, prune [] n = n) := by
        intro n
        refine XNode.rec (motive_1 := fun n => prune [] n = n) (motive_2 := fun ns => pruneList [] ns = ns) ?_ ?_ ?_ n
        · intro i t cs tl ih; simp [prune, ih]
        · rfl
        · intro n ns ih1 ih2
          cases n with
          | mk i t cs tl => simp [pruneList, ih1, ih2]
      rw [hid]
      exact ⟨rfl, trivial⟩
    rw [(hp n).1]
  · rw [textsExcluding_prune]

/-- C75 (partial): if no text contains a line feed, then no two words of different texts run
together.  Missing: a text with a line feed in it is not recognised as ending with a word
(`C75_words_run_together`). -/
theorem C75_words_apart_partial (cc : CharClass) (n : XNode) (h : ∀ t ∈ nodeTexts n, '\n' ∉ t) :
    WordsApart cc (nodeTexts n) (rawTextContent cc [] n) := by
  show WordsApart cc (nodeTexts n) (rawTextLoop cc none (nodeTexts n))
  generalize nodeTexts n = ts at h
  cases ts with
  | nil => exact .nil
  | cons t ts => simp only [rawTextLoop, List.nil_append]; exact wordsApart_cons cc t ts h

theorem isEndsWithWord_iff (cc : CharClass) (t : Str) : isEndsWithWord cc t = true ↔ EndsInOneLine cc t := by
  unfold isEndsWithWord
  constructor
  · intro h
    simp only [Bool.and_eq_true, decide_eq_true_eq] at h
    obtain ⟨h1, h2⟩ := h
    by_cases hl : t.getLast? = some '\n'
    · rw [if_pos hl] at h1 h2
      obtain ⟨s, rfl⟩ := List.getLast?_eq_some_iff.1 hl
      rw [List.dropLast_concat] at h1 h2
      cases hs : s.getLast? with
      | none => rw [hs] at h2; cases h2
      | some c =>
        obtain ⟨a, rfl⟩ := List.getLast?_eq_some_iff.1 hs
        rw [hs] at h2
        exact ⟨a, c, h2, h1, .inr (by simp)⟩
    · rw [if_neg hl] at h1 h2
      cases hs : t.getLast? with
      | none => rw [hs] at h2; cases h2
      | some c =>
        obtain ⟨a, rfl⟩ := List.getLast?_eq_some_iff.1 hs
        rw [hs] at h2
        exact ⟨a, c, h2, h1, .inl rfl⟩
  · rintro ⟨a, c, hc, hn, rfl | rfl⟩
    · have : (if (a ++ [c]).getLast? = some '\n' then (a ++ [c]).dropLast else a ++ [c]) = a ++ [c] :=
        if_neg (fun h => hn (List.mem_of_getLast? h))
      simp only [this]
      simp only [List.getLast?_concat, Option.map_some, Option.getD_some, hc, Bool.and_true, decide_eq_true_eq]
      exact hn
    · have e : a ++ [c, '\n'] = (a ++ [c]) ++ ['\n'] := by simp
      rw [e]
      simp only [List.getLast?_concat, if_pos, List.dropLast_concat, Option.map_some, Option.getD_some, hc, Bool.and_true, decide_eq_true_eq]
      exact hn

theorem isStartsWithWord_iff (cc : CharClass) (u : Str) : isStartsWithWord cc u = true ↔ StartsWithWord cc u := by
  cases u with
  | nil => exact ⟨fun h => (by cases h), fun ⟨_, _, _, h⟩ => (by cases h)⟩
  | cons d b => exact ⟨fun h => ⟨d, b, h, rfl⟩, fun ⟨_, _, h, e⟩ => by cases e; exact h⟩

theorem prune_nil (n : XNode) : prune [] n = n := by
  refine XNode.rec (motive_1 := fun n => prune [] n = n) (motive_2 := fun ns => pruneList [] ns = ns) ?_ ?_ ?_ n
  · intro i t cs tl ih; simp [prune, ih]
  · rfl
  · intro n ns ih1 ih2
    cases n with
    | mk i t cs tl => simp [pruneList, ih1, ih2]

theorem joinedExactly_loop (cc : CharClass) (ts : List Str) : JoinedExactly cc ts (rawTextLoop cc none ts) := by
  cases ts with
  | nil => exact .nil
  | cons t ts =>
    simp only [rawTextLoop, List.nil_append]
    induction ts generalizing t with
    | nil => simp only [rawTextLoop, List.append_nil]; exact .one t
    | cons u ts ih =>
      simp only [rawTextLoop]
      by_cases h : (isEndsWithWord cc t && isStartsWithWord cc u) = true
      · rw [if_pos h]
        rw [Bool.and_eq_true, isEndsWithWord_iff cc, isStartsWithWord_iff] at h
        exact .space h.1 h.2 (ih u)
      · rw [if_neg h]
        rw [Bool.and_eq_true, isEndsWithWord_iff cc, isStartsWithWord_iff] at h
        exact .plain h (ih u)

/-- **C75**, exactly: the raw text of an element consists of its texts, with a space exactly where the text before is recognised as ending with a
word, which it is only if no line feed is before its last word character, and the text behind starts with one. -/
theorem C75_exact (cc : CharClass) (n : XNode) :
    JoinedExactly cc (nodeTexts n) (rawTextContent cc [] n) :=
  joinedExactly_loop cc _

/-- **C75**, exactly, with excluded elements: the raw text is that of the element without their content. A parser returns no empty texts. -/
theorem C75_exact_excluding (cc : CharClass) (exclude : List Nat) (n : XNode) (hne : ∀ t ∈ nodeTexts n, t ≠ []) :
    JoinedExactly cc (nodeTexts (prune exclude n)) (rawTextContent cc exclude n) := by
  unfold rawTextContent iterTextExclude
  split
  · next he =>
    rw [List.isEmpty_iff.mp he, prune_nil]
    exact joinedExactly_loop cc _
  · rw [textsExcluding_eq exclude n hne]
    exact joinedExactly_loop cc _

/-- An element with two children. -/
def rawTextExample (s : Str) : XNode :=
  .mk 0 none [.mk 1 (some s) [] none, .mk 2 (some c!"Smith") [] (some c!", and")] none

/-- Non-vacuity of the C75 theorems. -/
example : rawTextContent asciiClass [] (rawTextExample c!"John") = c!"John Smith, and" ∧
    rawTextContent asciiClass [2] (rawTextExample c!"John") = c!"John, and" ∧
    (∀ t ∈ nodeTexts (rawTextExample c!"John"), '\n' ∉ t) := by decide +kernel

/-- C75 (disagreement): words run together if the first text contains a line feed. -/
theorem C75_words_run_together :
    rawTextContent asciiClass [] (rawTextExample c!"Mary\nJohn") = c!"Mary\nJohnSmith, and" := by decide +kernel

/-- C76 (partial): an element is left out exactly if it is the parent of another selected element;
the others keep their order.  Missing: elements that contain another selected element further
inside are not left out (`C76_grandparent_kept`). -/
theorem C76_parents_excluded_partial (env : TargetEnv) (ns : List XNode) :
    (excludeParents env ns).Sublist ns ∧
      ∀ n, n ∈ excludeParents env ns ↔ n ∈ ns ∧ ∀ m ∈ ns, env.parent m ≠ some n.id := by
  refine ⟨List.filter_sublist, ?_⟩
  intro n
  unfold excludeParents
  rw [List.mem_filter]
  simp only [decide_eq_true_eq, List.mem_filterMap]
  constructor
  · rintro ⟨h1, h2⟩
    exact ⟨h1, fun m hm he => h2 ⟨m, hm, he⟩⟩
  · rintro ⟨h1, h2⟩
    exact ⟨h1, fun ⟨m, hm, he⟩ => h2 m hm he⟩

theorem within_trans_child {n m c : XNode} (h : Within n m) (hc : c ∈ m.children) : Within n c := by
  induction h with
  | self n => exact .child hc (.self _)
  | child h1 _ ih => exact .child h1 (ih hc)

theorem sizeOf_child {n c : XNode} (hc : c ∈ n.children) : sizeOf c < sizeOf n := by
  cases n with
  | mk i t cs tl =>
    have h := List.sizeOf_lt_of_mem (show c ∈ cs from hc)
    simp only [XNode.mk.sizeOf_spec]
    omega

/-- C76, exactly: the text of no element is used twice if and only if each selected element around another selected
one has a selected child.  `parent` is the parent of an element of the document. -/
theorem C76_once_iff (env : TargetEnv) (ns : List XNode)
    (hp : ∀ m ∈ ns, ∀ n ∈ ns, env.parent m = some n.id ↔ m ∈ n.children) :
    (∀ n ∈ excludeParents env ns, ∀ m ∈ excludeParents env ns, ¬ InsideOf n m) ↔
      ∀ n ∈ ns, (∃ m ∈ ns, InsideOf n m) → ∃ m ∈ ns, m ∈ n.children := by
  have hk := (C76_parents_excluded_partial env ns).2
  constructor
  · intro h n hn ⟨m, hm, hi⟩
    apply Classical.byContradiction
    intro hno
    have hnk : n ∈ excludeParents env ns :=
      (hk n).2 ⟨hn, fun m' hm' e => hno ⟨m', hm', (hp m' hm' n hn).1 e⟩⟩
    have key : ∀ (k : Nat) (m : XNode), sizeOf m ≤ k → m ∈ ns → InsideOf n m → False := by
      intro k
      induction k with
      | zero =>
        intro m hs
        cases m with
        | mk i t cs tl => simp only [XNode.mk.sizeOf_spec] at hs; omega
      | succ k ih =>
        intro m hs hm hi
        by_cases hmk : m ∈ excludeParents env ns
        · exact h n hnk m hmk hi
        · apply hmk
          refine (hk m).2 ⟨hm, fun m' hm' e => ?_⟩
          have hc := (hp m' hm' m hm).1 e
          obtain ⟨c, hc1, hc2⟩ := hi
          exact ih m' (by have := sizeOf_child hc; omega) hm' ⟨c, hc1, within_trans_child hc2 hc⟩
    exact key _ m (Nat.le_refl _) hm hi
  · intro h n hn m hm hi
    obtain ⟨hn1, hn2⟩ := (hk n).1 hn
    obtain ⟨m', hm', hc⟩ := h n hn1 ⟨m, ((hk m).1 hm).1, hi⟩
    exact hn2 m' hm' ((hp m' hm' n hn1).2 hc)

/-- C77: the sub fields of a field are exactly the options `<field>.sub.<name>` of the mapping for
which the name has no further dot. -/
theorem C77_sub_fields (mapping : Dict Str) (hnd : mapping.Pairwise (fun p q => p.1 ≠ q.1)) (tag k : Str) :
    (getSubMapping mapping tag).get? k =
      if '.' ∈ k then none else mapping.get? (tag ++ c!".sub." ++ k) := getSubMapping_get? mapping hnd tag k

/-- C77: sub annotations are extracted for the sub fields of the mapping only, and each has a value. -/
theorem C77_sub_annotation_names (env : TargetEnv) (e : XNode) (subs mapping : Dict Str) (key : Str) :
    ∀ a ∈ extractSubAnnotations env e subs mapping key, a.1 ∈ subs.map (·.1) ∧ a.2 ≠ .one [] ∧ a.2 ≠ .many [] := by
  intro a ha
  unfold extractSubAnnotations at ha
  obtain ⟨p, hp, ha⟩ := List.mem_flatMap.mp ha
  obtain ⟨v, hv, rfl⟩ := List.mem_map.mp ha
  refine ⟨List.mem_map.mpr ⟨p, hp, rfl⟩, ?_⟩
  unfold subFieldValues at hv
  obtain ⟨n, _, hv⟩ := List.mem_filterMap.mp hv
  simp only [] at hv
  generalize (if (strippedTextContent env n []).isEmpty = true then strippedTextContent env n []
    else strip env.cc (stripWhitespace (strippedTextContent env n []))) = t at hv
  split at hv
  · simp at hv
  · next hne =>
    split at hv
    · split at hv
      · simp at hv
      · next hl =>
        generalize hg : extractUsingRegex env.cc t (env.reSpans (orEmpty (mapping.get? (key ++ c!".sub" ++ c!"." ++ p.1 ++ c!".extract-regex"))) t) = l at hv hl
        have hlne : l ≠ [] := by
          rw [← hg]
          intro he
          generalize env.reSpans _ t = sp at he
          cases sp with
          | nil => simp [extractUsingRegex] at he
          | cons m ms =>
            rw [extractUsingRegex_cons] at he
            split at he
            · next h1 => rw [he] at h1; simp at h1
            · simp at he
        cases hv
        match l, hl, hlne with
        | [s], hl, _ =>
          refine ⟨?_, by simp [TargetValue.ofList]⟩
          intro he
          simp [TargetValue.ofList] at he
          exact hl (by rw [he])
        | a :: b :: l, _, _ => exact ⟨by simp [TargetValue.ofList], by simp [TargetValue.ofList]⟩
        | [], _, h => exact absurd rfl h
    · cases hv
      refine ⟨?_, by simp⟩
      intro he
      simp at he
      exact hne (by rw [he]; rfl)

/-- C78: options of a field come from the mapping: a flag is set exactly if the option is the text
`true`, the priority is the option or 0, patterns are used as given. -/
theorem C78_options (env : TargetEnv) (mapping : Dict Str) (k : Str) (cfg : FieldCfg) (h : fieldCfg env mapping k = .ok cfg) :
    (cfg.matchMultiple = true ↔ mapping.get? (k ++ c!".match-multiple") = some c!"true") ∧
      (cfg.bonding = true ↔ mapping.get? (k ++ c!".bonding") = some c!"true") ∧
      (cfg.requireNext = true ↔ mapping.get? (k ++ c!".require-next") = some c!"true") ∧
      (cfg.unmatchedParentText = true ↔ mapping.get? (k ++ c!".unmatched-parent-text") = some c!"true") ∧
      env.parseInt ((mapping.get? (k ++ c!".priority")).getD c!"0") = .ok cfg.priority ∧
      cfg.regex = mapping.get? (k ++ c!".regex") ∧ cfg.extractRegex = mapping.get? (k ++ c!".extract-regex") ∧
      (cfg.useRawText = none ↔ ∀ v, mapping.get? (k ++ c!".use-raw-text") = some v → v = []) := by
  unfold fieldCfg at h
  cases h1 : jsonWithDefault env.jsonConcat (mapping.get? (k ++ c!".children.concat")) with
  | error e => simp [h1] at h
  | ok concat =>
    simp only [h1] at h
    cases h2 : jsonWithDefault env.jsonRange (mapping.get? (k ++ c!".children.range")) with
    | error e => simp [h2] at h
    | ok range =>
      simp only [h2] at h
      cases h3 : env.parseInt (mapping.getD (k ++ c!".priority") c!"0") with
      | error e => simp [h3] at h
      | ok priority =>
        simp only [h3] at h
        split at h
        · cases h
        · next useRaw h4 =>
          cases h
          refine ⟨by simp [mappingFlag], by simp [mappingFlag], by simp [mappingFlag], by simp [mappingFlag], ?_, rfl, rfl, ?_⟩
          · exact h3
          · show useRaw = none ↔ _
            cases hv : mapping.get? (k ++ c!".use-raw-text") with
            | none =>
              rw [hv] at h4
              simp [truthy] at h4
              simp [← h4]
            | some v =>
              rw [hv] at h4
              cases v with
              | nil => simp [truthy] at h4; simp [← h4]
              | cons c v =>
                rw [if_pos (by rfl)] at h4
                cases hb : strtobool env.lower (orEmpty (some (c :: v))) with
                | error e => rw [hb] at h4; cases h4
                | ok b => rw [hb] at h4; cases h4; simp

/-- C79: a range stands for exactly the decimal numerals of the numbers from its minimum to its
maximum; ranges marked as standalone give standalone values, the others alternatives. -/
theorem C79_ranges (env : TargetEnv) (parent : XNode) (items : List RangeItem) (r : RangeResult)
    (h : extractChildrenRange env parent items = .ok r) (s : Str) :
    (s ∈ r.values ↔ ∃ item ∈ items, item.standalone = false ∧ ∃ a b n, RangeOf env parent item a b ∧ a ≤ n ∧ n ≤ b ∧
      s = Nat.toDigits 10 n) ∧
    (s ∈ r.standalone ↔ ∃ item ∈ items, item.standalone = true ∧ ∃ a b n, RangeOf env parent item a b ∧ a ≤ n ∧ n ≤ b ∧
      s = Nat.toDigits 10 n) := mem_range_values h s

/-- C79: every text of an element with children expressions is not empty and is the text of a
selected child not used by a concatenation or range, a text directly inside of such a child, the
value of a concatenation or range, or the remaining text of the element. -/
theorem C79_children_texts (env : TargetEnv) (parent : XNode) (cfg : FieldCfg) (texts standalone : List Str)
    (h : extractChildTexts env parent cfg = .ok (texts, standalone)) :
    ∃ r, extractChildrenRange env parent cfg.range = .ok r ∧ standalone = r.standalone ∧
      ∀ t ∈ texts, t ≠ [] ∧
        ((∃ n ∈ (cfg.children.getD []).flatMap (env.xpath parent),
            n.id ∉ (extractChildrenConcat env parent cfg.concat).2 ++ r.used ∧
            (t = strip env.cc (strippedTextContent env n []) ∨ ∃ s ∈ env.immediateText n, t = strip env.cc (s.getD []))) ∨
          (∃ s ∈ (extractChildrenConcat env parent cfg.concat).1 ++ r.values, t = strip env.cc s) ∨
          (cfg.unmatchedParentText = true ∧ ∃ ex, t = strip env.cc (strippedTextContent env parent ex))) := by
  unfold extractChildTexts at h
  simp only [] at h
  cases hr : extractChildrenRange env parent cfg.range with
  | error e => rw [hr] at h; cases h
  | ok r =>
    rw [hr] at h
    simp only [] at h
    cases h
    refine ⟨r, rfl, rfl, ?_⟩
    have hor : ∀ s : Option Str, orEmpty s = s.getD [] := by intro s; cases s <;> rfl
    have hmem : ∀ n, n ∈ (matchXpaths env parent cfg.children).filter
        (fun n => n.id ∉ (extractChildrenConcat env parent cfg.concat).2 ++ r.used) →
        n ∈ (cfg.children.getD []).flatMap (env.xpath parent) ∧
        n.id ∉ (extractChildrenConcat env parent cfg.concat).2 ++ r.used := by
      intro n hn
      rw [List.mem_filter] at hn
      exact ⟨hn.1, by simpa using hn.2⟩
    generalize hother : (matchXpaths env parent cfg.children).filter
        (fun n => n.id ∉ (extractChildrenConcat env parent cfg.concat).2 ++ r.used) = other at hmem
    have hleaf : ∀ n ∈ excludeParents env other, n ∈ other := fun n hn => (List.mem_filter.mp hn).1
    generalize excludeParents env other = leaves at hleaf
    have base : ∀ t ∈ filterTruthy (stripAll env.cc
        ((leaves.map (fun n => some (strippedTextContent env n []))) ++
          ((extractChildrenConcat env parent cfg.concat).1 ++ r.values).map some)), t ≠ [] ∧
        ((∃ n ∈ (cfg.children.getD []).flatMap (env.xpath parent),
            n.id ∉ (extractChildrenConcat env parent cfg.concat).2 ++ r.used ∧
            (t = strip env.cc (strippedTextContent env n []) ∨ ∃ s ∈ env.immediateText n, t = strip env.cc (s.getD []))) ∨
          (∃ s ∈ (extractChildrenConcat env parent cfg.concat).1 ++ r.values, t = strip env.cc s) ∨
          (cfg.unmatchedParentText = true ∧ ∃ ex, t = strip env.cc (strippedTextContent env parent ex))) := by
      intro t ht
      unfold filterTruthy stripAll at ht
      rw [List.mem_filter] at ht
      refine ⟨by intro he; rw [he] at ht; simp at ht, ?_⟩
      obtain ⟨o, ho, rfl⟩ := List.mem_map.mp ht.1
      rcases List.mem_append.mp ho with ho | ho
      · obtain ⟨n, hn, rfl⟩ := List.mem_map.mp ho
        exact .inl ⟨n, (hmem n (hleaf n hn)).1, (hmem n (hleaf n hn)).2, .inl rfl⟩
      · obtain ⟨s, hs, rfl⟩ := List.mem_map.mp ho
        exact .inr (.inl ⟨s, hs, rfl⟩)
    have imm : ∀ t ∈ (other.filter (fun n => n.id ∉ leaves.map (·.id))).flatMap
        (fun n => filterTruthy (stripAll env.cc (env.immediateText n))), t ≠ [] ∧
        (∃ n ∈ (cfg.children.getD []).flatMap (env.xpath parent),
            n.id ∉ (extractChildrenConcat env parent cfg.concat).2 ++ r.used ∧
            (t = strip env.cc (strippedTextContent env n []) ∨ ∃ s ∈ env.immediateText n, t = strip env.cc (s.getD []))) := by
      intro t ht
      obtain ⟨n, hn, ht⟩ := List.mem_flatMap.mp ht
      unfold filterTruthy stripAll at ht
      rw [List.mem_filter] at ht
      refine ⟨by intro he; rw [he] at ht; simp at ht, ?_⟩
      obtain ⟨o, ho, rfl⟩ := List.mem_map.mp ht.1
      have hn := (List.mem_filter.mp hn).1
      exact ⟨n, (hmem n hn).1, (hmem n hn).2, .inr ⟨o, ho, by rw [hor]⟩⟩
    generalize filterTruthy (stripAll env.cc
        ((leaves.map (fun n => some (strippedTextContent env n []))) ++
          ((extractChildrenConcat env parent cfg.concat).1 ++ r.values).map some)) = T at base
    generalize (other.filter (fun n => n.id ∉ leaves.map (·.id))).flatMap
        (fun n => filterTruthy (stripAll env.cc (env.immediateText n))) = I at imm
    have step : ∀ t ∈ (if leaves.length = other.length then T else T ++ I), t ≠ [] ∧
        ((∃ n ∈ (cfg.children.getD []).flatMap (env.xpath parent),
            n.id ∉ (extractChildrenConcat env parent cfg.concat).2 ++ r.used ∧
            (t = strip env.cc (strippedTextContent env n []) ∨ ∃ s ∈ env.immediateText n, t = strip env.cc (s.getD []))) ∨
          (∃ s ∈ (extractChildrenConcat env parent cfg.concat).1 ++ r.values, t = strip env.cc s) ∨
          (cfg.unmatchedParentText = true ∧ ∃ ex, t = strip env.cc (strippedTextContent env parent ex))) := by
      intro t ht
      split at ht
      · exact base t ht
      · rcases List.mem_append.mp ht with ht | ht
        · exact base t ht
        · exact ⟨(imm t ht).1, .inl (imm t ht).2⟩
    generalize (if leaves.length = other.length then T else T ++ I) = T' at step
    intro t ht
    split at ht
    · next hu =>
      split at ht
      · next hv =>
        rcases List.mem_append.mp ht with ht | ht
        · exact step t ht
        · rw [List.mem_singleton] at ht
          refine ⟨?_, .inr (.inr ⟨hu, _, ht⟩)⟩
          intro he
          rw [← ht, he] at hv
          simp at hv
      · exact step t ht
    · exact step t ht

/-- C79: nothing is lost: the text of every selected child that is not used by a concatenation or
range and has no selected child of its own, and every value of a concatenation or range, is among
the texts unless it is blank. -/
theorem C79_children_complete (env : TargetEnv) (parent : XNode) (cfg : FieldCfg) (texts standalone : List Str)
    (h : extractChildTexts env parent cfg = .ok (texts, standalone)) :
    ∃ r, extractChildrenRange env parent cfg.range = .ok r ∧
      (∀ n ∈ (cfg.children.getD []).flatMap (env.xpath parent),
        n.id ∉ (extractChildrenConcat env parent cfg.concat).2 ++ r.used →
        (∀ m ∈ (cfg.children.getD []).flatMap (env.xpath parent), env.parent m ≠ some n.id) →
        strip env.cc (strippedTextContent env n []) ≠ [] → strip env.cc (strippedTextContent env n []) ∈ texts) ∧
      (∀ s ∈ (extractChildrenConcat env parent cfg.concat).1 ++ r.values, strip env.cc s ≠ [] → strip env.cc s ∈ texts) := by
  unfold extractChildTexts at h
  simp only [] at h
  cases hr : extractChildrenRange env parent cfg.range with
  | error e => rw [hr] at h; cases h
  | ok r =>
    rw [hr] at h
    simp only [] at h
    cases h
    generalize hother : (matchXpaths env parent cfg.children).filter
        (fun n => n.id ∉ (extractChildrenConcat env parent cfg.concat).2 ++ r.used) = other
    generalize hleaf : excludeParents env other = leaves
    generalize hT : filterTruthy (stripAll env.cc
        ((leaves.map (fun n => some (strippedTextContent env n []))) ++
          ((extractChildrenConcat env parent cfg.concat).1 ++ r.values).map some)) = T
    generalize (other.filter (fun n => n.id ∉ leaves.map (·.id))).flatMap
        (fun n => filterTruthy (stripAll env.cc (env.immediateText n))) = I
    generalize strip env.cc (strippedTextContent env parent
      (other.map (·.id) ++ ((extractChildrenConcat env parent cfg.concat).2 ++ r.used))) = v
    have hsub : ∀ t ∈ T, t ∈ (if cfg.unmatchedParentText = true then
        if (!v.isEmpty && decide (v ∉ if leaves.length = other.length then T else T ++ I)) = true then
          (if leaves.length = other.length then T else T ++ I) ++ [v]
        else if leaves.length = other.length then T else T ++ I
      else if leaves.length = other.length then T else T ++ I) := by
      intro t ht
      have h1 : t ∈ (if leaves.length = other.length then T else T ++ I) := by
        split
        · exact ht
        · exact List.mem_append_left _ ht
      generalize (if leaves.length = other.length then T else T ++ I) = T' at h1
      split
      · split
        · exact List.mem_append_left _ h1
        · exact h1
      · exact h1
    refine ⟨r, rfl, ?_, ?_⟩
    · intro n hn hu hp hne
      apply hsub
      rw [← hT]
      refine List.mem_filter.mpr ⟨List.mem_map.mpr ⟨some (strippedTextContent env n []),
        List.mem_append_left _ (List.mem_map.mpr ⟨n, ?_, rfl⟩), rfl⟩, ?_⟩
      · rw [← hleaf, ← hother]
        refine List.mem_filter.mpr ⟨List.mem_filter.mpr ⟨hn, by simpa using hu⟩, ?_⟩
        rw [decide_eq_true_eq]
        intro hc
        obtain ⟨m, hm, hm2⟩ := List.mem_filterMap.mp hc
        exact hp m (List.mem_filter.mp hm).1 hm2
      · cases hs : strip env.cc (strippedTextContent env n []) with
        | nil => exact absurd hs hne
        | cons _ _ => rfl
    · intro s hs hne
      apply hsub
      rw [← hT]
      refine List.mem_filter.mpr ⟨List.mem_map.mpr ⟨some s,
        List.mem_append_right _ (List.mem_map.mpr ⟨s, hs, rfl⟩), rfl⟩, ?_⟩
      cases hs : strip env.cc s with
      | nil => exact absurd hs hne
      | cons _ _ => rfl

/-! Examples -/

/-- A document with a title, two authors and nested elements. -/
def targetExampleRoot : XNode :=
  .mk 0 none [.mk 1 (some c!"A title") [] none,
    .mk 2 none [.mk 3 (some c!"Smith") [] none, .mk 4 none [.mk 5 (some c!"J") [] none] none] none,
    .mk 6 (some c!"Doe") [] none] none

/-- All elements of a document. -/
def targetExampleNodes : List XNode :=
  [.mk 1 (some c!"A title") [] none,
    .mk 2 none [.mk 3 (some c!"Smith") [] none, .mk 4 none [.mk 5 (some c!"J") [] none] none] none,
    .mk 6 (some c!"Doe") [] none]

/-- An environment for the example: expressions are names of fixed selections. -/
def targetExampleEnv : TargetEnv where
  cc := asciiClass
  xpath _ s :=
    if s = c!"title" then targetExampleNodes.take 1
    else if s = c!"author" then targetExampleNodes.drop 1
    else if s = c!"nested" then
      [.mk 2 none [.mk 3 (some c!"Smith") [] none, .mk 4 none [.mk 5 (some c!"J") [] none] none] none, .mk 5 (some c!"J") [] none]
    else []
  parent n := if n.id = 5 then some 4 else if n.id = 4 ∨ n.id = 3 then some 2 else some 0
  textContent n ex := (iterTextExclude ex n).flatten
  immediateText n := n.text :: n.children.map (·.tail)
  reMatch _ _ := none
  reSpans _ _ := []
  jsonConcat _ := .ok []
  jsonRange _ := .ok []
  parseInt s := if s = c!"10" then .ok 10 else .ok 0
  lower s := s

/-- The mapping of the example. -/
def targetExampleMapping : Dict (Dict Str) :=
  [(c!"article", [(c!"title", c!"title"), (c!"author", c!"author"), (c!"author.priority", c!"10")])]

/-- Non-vacuity of `C46_order`: the authors come first because of their priority. -/
example : (xmlRootToTargetAnnotations targetExampleEnv targetExampleMapping c!"article" targetExampleRoot).map
      (fun l => l.map (fun i => (i.target.name, i.target.value))) =
    .ok [(c!"author", .one c!"Smith J"), (c!"author", .one c!"Doe"), (c!"title", .one c!"A title")] := by
  decide +kernel

/-- Non-vacuity of `C46_document_order`: the first author starts before the element inside of it
and before the second author. -/
example : (nodeIds targetExampleRoot).Nodup ∧
    StartsBefore targetExampleRoot
      (.mk 2 none [.mk 3 (some c!"Smith") [] none, .mk 4 none [.mk 5 (some c!"J") [] none] none] none) (.mk 3 (some c!"Smith") [] none) ∧
    StartsBefore targetExampleRoot (.mk 3 (some c!"Smith") [] none) (.mk 6 (some c!"Doe") [] none) :=
  ⟨by decide +kernel, .inside (.child (List.mem_cons_of_mem _ List.mem_cons_self) (.self _)) List.mem_cons_self (.self _),
    .siblings (l1 := [_]) (l2 := []) (l3 := []) (.self _) rfl (.child List.mem_cons_self (.self _)) (.self _)⟩

/-- C76 (disagreement): an element is kept although an element inside of it is selected too, so its
text is returned twice. -/
theorem C76_grandparent_kept :
    ((excludeParents targetExampleEnv (targetExampleEnv.xpath targetExampleRoot c!"nested")).map
      (fun n => strippedTextContent targetExampleEnv n [])) = [c!"SmithJ", c!"J"] := by decide +kernel

/-- C45: the text of an element used as a value has its white space collapsed: it is the text of the element without white
space at its ends, with every run of white space made one line feed or one space. -/
theorem C45_element_text (env : TargetEnv) (n : XNode) (exclude : List Nat) :
    strippedTextContent env n exclude = collapseWhitespace (strip env.cc (env.textContent n exclude)) :=
  stripWhitespace_collapse _

/-- C45: the value of a sub field without a pattern is the text of an element selected for it, with its white space
collapsed. -/
theorem C45_sub_value (env : TargetEnv) (e : XNode) (xpath : Str) (v : TargetValue) :
    v ∈ subFieldValues env e xpath none ↔
      ∃ n ∈ env.xpath e xpath, ∃ s, s = strip env.cc (collapseWhitespace (strip env.cc (env.textContent n []))) ∧
        s ≠ [] ∧ v = .one s := by
  unfold subFieldValues
  rw [List.mem_filterMap]
  apply exists_congr
  intro n
  apply and_congr_right
  intro _
  have h1 : stripWhitespace (strippedTextContent env n []) = strippedTextContent env n [] := by
    unfold strippedTextContent
    conv => lhs; rw [stripWhitespace_collapse]
    exact collapseFrom_collapsed _ (collapsed_stripWhitespace _)
  have h2 : (if (strippedTextContent env n []).isEmpty = true then strippedTextContent env n []
      else strip env.cc (stripWhitespace (strippedTextContent env n []))) =
      strip env.cc (collapseWhitespace (strip env.cc (env.textContent n []))) := by
    rw [← C45_element_text, h1]
    split
    · next he =>
      rw [List.isEmpty_iff.1 he]
      rfl
    · rfl
  simp only [h2]
  generalize strip env.cc (collapseWhitespace (strip env.cc (env.textContent n []))) = s
  cases s <;> simp [truthy, eq_comm]

/-- Non-vacuity of `C76_once_iff`: an author with two selected parts, one of them inside of another one. -/
example : (∀ m ∈ [.mk 2 none [.mk 3 (some c!"Smith") [] none, .mk 4 none [.mk 5 (some c!"J") [] none] none] none,
        .mk 3 (some c!"Smith") [] none, XNode.mk 4 none [.mk 5 (some c!"J") [] none] none],
      ∀ n ∈ [.mk 2 none [.mk 3 (some c!"Smith") [] none, .mk 4 none [.mk 5 (some c!"J") [] none] none] none,
        .mk 3 (some c!"Smith") [] none, XNode.mk 4 none [.mk 5 (some c!"J") [] none] none],
      targetExampleEnv.parent m = some n.id ↔ m ∈ n.children) ∧
    ((excludeParents targetExampleEnv
      [.mk 2 none [.mk 3 (some c!"Smith") [] none, .mk 4 none [.mk 5 (some c!"J") [] none] none] none,
        .mk 3 (some c!"Smith") [] none, .mk 4 none [.mk 5 (some c!"J") [] none] none]).map (·.id)) = [3, 4] := by
  refine ⟨?_, by decide +kernel⟩
  intro m hm n hn
  simp only [List.mem_cons, List.not_mem_nil, or_false] at hm hn
  rcases hm with rfl | rfl | rfl <;> rcases hn with rfl | rfl | rfl <;>
    simp [targetExampleEnv, XNode.id, XNode.children]

/-- Non-vacuity of the C78 and C79 theorems: a range from 2 to 4 and a selected child. -/
example : ((fieldCfg targetExampleEnv [(c!"a", c!"title"), (c!"a.bonding", c!"true")] c!"a").map
      (fun c => (c.bonding, c.matchMultiple))) = .ok (true, false) ∧
    ((fieldCfg targetExampleEnv [(c!"a", c!"title"), (c!"a.children", c!"title")] c!"a").bind (fun cfg =>
      extractChildTexts
        { targetExampleEnv with parseInt := fun s => if s = c!"2" then .ok 2 else if s = c!"4" then .ok 4 else .error .valueError }
        targetExampleRoot { cfg with range := [{ min := { value := some c!"2" }, max := { value := some c!"4" } }] })) =
      .ok ([c!"A title", c!"2", c!"3", c!"4"], []) := by decide +kernel

/-- Non-vacuity of `C77_sub_fields`. -/
example : (getSubMapping [(c!"a", c!"x"), (c!"a.sub.b", c!"y"), (c!"a.sub.b.extract-regex", c!"z")] c!"a") =
    [(c!"b", c!"y")] := by decide +kernel

end Verif
