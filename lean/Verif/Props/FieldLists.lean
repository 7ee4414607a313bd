/-
C42 (field lists), C43 (mapping filters), C60 (key value options).
-/
import Verif.Lemmas.FieldLists

namespace Verif.Props
open Spec

/-! ## C42 Field lists on the command line -/

/-- Every string is some parts joined by commas; the list consists of these parts without the white
space around them, except that a blank string is the empty list. -/
theorem C42_comma_list (cc : CharClass) (hc : cc.isSpace ',' = false) (parts : List Str) (hne : parts ≠ [])
    (hp : ∀ p ∈ parts, ',' ∉ p) :
    commaList cc (joinStr c!"," parts) =
      if (∀ c ∈ joinStr c!"," parts, cc.isSpace c = true) then [] else parts.map (strip cc) := by
  unfold commaList
  simp only
  by_cases hb : ∀ c ∈ joinStr c!"," parts, cc.isSpace c = true
  · rw [if_pos hb, (strip_eq_nil_iff cc _).2 hb]; rfl
  · have hs : strip cc (joinStr c!"," parts) ≠ [] := fun h => hb ((strip_eq_nil_iff cc _).1 h)
    have he : (strip cc (joinStr c!"," parts)).isEmpty = false := by
      cases h : strip cc (joinStr c!"," parts) with
      | nil => exact absurd h hs
      | cons => rfl
    rw [if_neg hb, he]
    simp only [Bool.false_eq_true, if_false]
    obtain ⟨a, b, h1, ha, hb'⟩ := strip_decompose cc (joinStr c!"," parts)
    have := map_strip_splitOn cc ',' hc a (strip cc (joinStr c!"," parts)) b ha hb'
    rw [← h1, splitOn_joinStr ',' parts hne hp] at this
    exact this.symm

/-- Every string is a list of parts joined by commas. -/
theorem C42_parts (s : Str) : ∃ parts, parts ≠ [] ∧ (∀ p ∈ parts, ',' ∉ p) ∧ s = joinStr c!"," parts :=
  ⟨splitOn ',' s, splitOn_ne_nil _ _, not_mem_splitOn _ _, (joinStr_splitOn _ _).symm⟩

/-- Without a sign on the first item the list is taken literally. -/
theorem C42_literal (cc : CharClass) (h : ListHeap) (dflt fresh : Nat) (s : Str)
    (hs : ∀ item items, commaList cc s = item :: items → ¬ signed item) :
    plusMinusList cc h dflt fresh s = (h, .ok (commaList cc s)) := by
  unfold plusMinusList
  simp only
  split
  · next c cs items he =>
    rw [if_neg]
    intro hc
    simp only [Bool.or_eq_true, decide_eq_true_eq] at hc
    apply hs _ _ he
    rcases hc with hc | hc <;> subst hc
    · exact ⟨cs, .inl rfl⟩
    · exact ⟨cs, .inr rfl⟩
  · rfl

theorem C42_aux_run (cc : CharClass) (h : ListHeap) (dflt fresh : Nat) (s : Str) (item : Str) (items : List Str)
    (he : commaList cc s = item :: items) (hs : signed item) :
    (∀ j, j ≠ fresh → (plusMinusList cc h dflt fresh s).1 j = h j) ∧
    (plusMinusList cc h dflt fresh s).2 =
      match applyEdits (h dflt) (edits false (item :: items)) with
      | some l => .ok l
      | none => .error .valueError := by
  obtain ⟨v, hv⟩ := hs
  have : ∃ c cs, item = c :: cs ∧ (c = '+' || c = '-') = true := by
    rcases hv with hv | hv
    · exact ⟨'+', v, hv, rfl⟩
    · exact ⟨'-', v, hv, rfl⟩
  obtain ⟨c, cs, hi, hc⟩ := this
  subst hi
  unfold plusMinusList
  simp only [he, hc, if_true]
  rw [plusMinusLoop_none fresh _ c cs items hc]
  obtain ⟨h1, h2, h3⟩ := plusMinusLoop_spec fresh ((c :: cs) :: items) (h.put fresh (h dflt)) false (some '-') rfl
  rw [put_same] at h2 h3
  cases ha : applyEdits (h dflt) (edits false ((c :: cs) :: items)) with
  | some l =>
    obtain ⟨g1, g2⟩ := h2 l ha
    generalize hr : plusMinusLoop fresh (h.put fresh (h dflt)) (some '-') ((c :: cs) :: items) = res at *
    obtain ⟨h', e⟩ := res
    simp only at g1 g2
    subst g1
    simp only
    refine ⟨fun j hj => ?_, by rw [g2]⟩
    exact (h1 j hj).trans (put_ne _ _ _ _ hj)
  | none =>
    have g1 := h3 ha
    generalize hr : plusMinusLoop fresh (h.put fresh (h dflt)) (some '-') ((c :: cs) :: items) = res at *
    obtain ⟨h', e⟩ := res
    simp only at g1
    subst g1
    simp only
    exact ⟨fun j hj => (h1 j hj).trans (put_ne _ _ _ _ hj), trivial⟩

/-- With a sign on the first item, the result is the default list with the items added and removed:
each value occurs as often as in the default list, plus the times it is added, less the times
it is removed; the order is that of the default list followed by the added items. -/
theorem C42_edited (cc : CharClass) (h : ListHeap) (dflt fresh : Nat) (s : Str) (item : Str)
    (items : List Str) (he : commaList cc s = item :: items) (hs : signed item) (result : List Str)
    (hr : (plusMinusList cc h dflt fresh s).2 = .ok result) :
    (∀ x, result.count x + (edits false (item :: items)).count (.remove x) =
      (h dflt).count x + (edits false (item :: items)).count (.add x)) ∧
    result.Sublist (h dflt ++ added (edits false (item :: items))) := by
  rw [(C42_aux_run cc h dflt fresh s item items he hs).2] at hr
  cases ha : applyEdits (h dflt) (edits false (item :: items)) with
  | none => rw [ha] at hr; cases hr
  | some l =>
    rw [ha] at hr
    have := Except.ok.inj hr
    subst this
    exact ⟨applyEdits_count _ _ _ ha, applyEdits_sublist _ _ _ ha⟩

/-- Removing an item which is not in the list (any more) is the only error. -/
theorem C42_error (cc : CharClass) (h : ListHeap) (dflt fresh : Nat) (s : Str) (item : Str)
    (items : List Str) (he : commaList cc s = item :: items) (hs : signed item) :
    ((∃ result, (plusMinusList cc h dflt fresh s).2 = .ok result) ↔
      ∀ pre x post, edits false (item :: items) = pre ++ .remove x :: post →
        pre.count (.remove x) < (h dflt).count x + pre.count (.add x)) ∧
    ∀ e, (plusMinusList cc h dflt fresh s).2 = .error e → e = .valueError := by
  rw [(C42_aux_run cc h dflt fresh s item items he hs).2, ← applyEdits_isSome]
  constructor
  · cases ha : applyEdits (h dflt) (edits false (item :: items)) with
    | none => simp
    | some l => simp
  · intro e hee
    cases ha : applyEdits (h dflt) (edits false (item :: items)) with
    | none => rw [ha] at hee; exact (Except.error.inj hee).symm
    | some l => rw [ha] at hee; cases hee

/-- As sets, for items naming different fields: the result has the fields of the default and the added
ones, without the removed ones. -/
theorem C42_set (cc : CharClass) (h : ListHeap) (dflt fresh : Nat) (s : Str) (item : Str)
    (items : List Str) (he : commaList cc s = item :: items) (hs : signed item) (result : List Str)
    (hnd : (h dflt).Nodup) (hdist : ((edits false (item :: items)).map Edit.value).Nodup)
    (hr : (plusMinusList cc h dflt fresh s).2 = .ok result) (x : Str) :
    x ∈ result ↔ (x ∈ h dflt ∨ .add x ∈ edits false (item :: items)) ∧
      .remove x ∉ edits false (item :: items) := by
  have hc := (C42_edited cc h dflt fresh s item items he hs result hr).1 x
  generalize edits false (item :: items) = es at *
  have h1 : (h dflt).count x ≤ 1 := List.nodup_iff_count.1 hnd x
  have h2 : es.count (.remove x) + es.count (.add x) ≤ 1 := by
    have := List.nodup_iff_count.1 hdist x
    refine Nat.le_trans (Nat.le_of_eq ?_) this
    clear this hdist hc
    induction es with
    | nil => rfl
    | cons e es ih =>
      rw [List.map_cons, List.count_cons, List.count_cons, List.count_cons, ← ih]
      cases e with
      | add v => simp [Edit.value]; omega
      | remove v => simp [Edit.value]; omega
  rw [← List.count_pos_iff, ← List.count_pos_iff (l := h dflt), ← List.count_pos_iff (l := es),
    ← List.count_pos_iff (l := es)]
  by_cases h3 : 0 < es.count (.remove x)
  · simp only [h3, not_true_eq_false, and_false, iff_false]
    omega
  · simp only [h3, not_false_eq_true, and_true]
    omega

/-- The default list is not modified, whatever happens. -/
theorem C42_default_unchanged (cc : CharClass) (h : ListHeap) (dflt fresh : Nat) (hf : fresh ≠ dflt) (s : Str) :
    (plusMinusList cc h dflt fresh s).1 dflt = h dflt := by
  cases he : commaList cc s with
  | nil => rw [C42_literal cc h dflt fresh s (by rw [he]; simp)]
  | cons item items =>
    cases item with
    | nil =>
      rw [C42_literal cc h dflt fresh s]
      rintro i is hi ⟨v, hv⟩
      rw [he, List.cons.injEq] at hi
      rw [← hi.1] at hv
      simp at hv
    | cons c cs =>
      by_cases hc : (c = '+' || c = '-') = true
      · have hs : signed (c :: cs) := by
          simp only [Bool.or_eq_true, decide_eq_true_eq] at hc
          rcases hc with hc | hc <;> subst hc
          · exact ⟨cs, .inl rfl⟩
          · exact ⟨cs, .inr rfl⟩
        exact (C42_aux_run cc h dflt fresh s _ _ he hs).1 dflt (Ne.symm hf)
      · rw [C42_literal cc h dflt fresh s]
        rintro i is hi ⟨v, hv⟩
        rw [he, List.cons.injEq] at hi
        rw [← hi.1] at hv
        simp only [List.cons.injEq] at hv
        apply hc
        rcases hv with hv | hv <;> rw [hv.1] <;> rfl

/-- A default list as list object 0. -/
def exHeap : ListHeap := fun j => if j = 0 then [c!"title", c!"abstract"] else []

example : (plusMinusList asciiClass exHeap 0 1 c!"+ref, author,-title").2 =
    .ok [c!"abstract", c!"ref", c!"author"] := by decide +kernel

example : (plusMinusList asciiClass exHeap 0 1 c!"-ref").2 = .error .valueError := by decide +kernel

example : (plusMinusList asciiClass exHeap 0 1 c!" a , -b,").2 = .ok [c!"a", c!"-b", []] := by decide +kernel

example : edits false [c!"+ref", c!"author", c!"-title"] = [.add c!"ref", .add c!"author", .remove c!"title"] := by
  decide +kernel

/-! ## C43 Filtering of the XML mapping -/

/-- An entry is kept, unchanged, exactly when it belongs to one of the fields (if there are any)
and is not the entry of some other sub field (if there are any sub fields); no entry is
invented. -/
theorem C43_entries (fields subFields : List Str) (hf : ∀ f ∈ fields, '.' ∉ f) (m : Dict (Dict Str)) (s k : Str) :
    let kept := (fields = [] ∨ ∃ f ∈ fields, keyOf f k) ∧
      (subFields = [] ∨ ∀ sub, sub ≠ [] → subKeyOf sub k → sub ∈ subFields)
    (kept → entry (filterMapping fields subFields m).1 s k = entry m s k) ∧
    (¬ kept → entry (filterMapping fields subFields m).1 s k = none) := by
  have hsub : ∀ m' : Mapping, entry (filterSubFields subFields m') s k =
      if (subFields.isEmpty || keySelected subFields k) = true then entry m' s k else none := by
    intro m'
    unfold filterSubFields
    cases subFields with
    | nil => rfl
    | cons x xs =>
      rw [List.isEmpty_cons, if_neg Bool.false_ne_true, Bool.false_or]
      exact entry_filter m' (keySelected (x :: xs)) s k
  have hall : entry (filterMapping fields subFields m).1 s k =
      if (fields.isEmpty || fields.contains (mappingKeyFieldName k)) = true ∧
        (subFields.isEmpty || keySelected subFields k) = true then entry m s k else none := by
    unfold filterMapping
    cases fields with
    | nil =>
      simp only [List.isEmpty_nil, Bool.not_true, Bool.false_eq_true, if_false, Bool.true_or, true_and]
      exact hsub m
    | cons f fs =>
      simp only [List.isEmpty_cons, Bool.not_false, if_true, Bool.false_or]
      rw [hsub, entry_filter m (fun k => (f :: fs).contains (mappingKeyFieldName k)) s k]
      by_cases h1 : (f :: fs).contains (mappingKeyFieldName k) = true
      · simp only [h1, if_true, true_and]
      · simp only [h1, if_false, false_and, Bool.false_eq_true, ite_self]
  have e1 : (fields.isEmpty || fields.contains (mappingKeyFieldName k)) = true ↔
      (fields = [] ∨ ∃ f ∈ fields, keyOf f k) := by
    rw [Bool.or_eq_true, List.isEmpty_iff, List.contains_iff_mem]
    refine or_congr Iff.rfl ⟨?_, ?_⟩
    · intro h
      exact ⟨_, h, (mappingKeyFieldName_eq k _ (hf _ h)).1 rfl⟩
    · rintro ⟨g, hg, hk⟩
      rw [(mappingKeyFieldName_eq k g (hf g hg)).2 hk]; exact hg
  have e2 : (subFields.isEmpty || keySelected subFields k) = true ↔
      (subFields = [] ∨ ∀ sub, sub ≠ [] → subKeyOf sub k → sub ∈ subFields) := by
    rw [Bool.or_eq_true, List.isEmpty_iff, keySelected_iff]
  intro kept
  rw [hall]
  constructor
  · intro h; rw [if_pos ⟨e1.2 h.1, e2.2 h.2⟩]
  · intro h; rw [if_neg (fun h' => h ⟨e1.1 h'.1, e2.1 h'.2⟩)]

/-- All sections are kept. -/
theorem C43_sections (fields subFields : List Str) (m : Dict (Dict Str)) :
    (filterMapping fields subFields m).1.map Prod.fst = m.map Prod.fst := by
  have hsub : ∀ m' : Mapping, (filterSubFields subFields m').map Prod.fst = m'.map Prod.fst := by
    intro m'
    unfold filterSubFields
    split
    · rfl
    · rw [List.map_map]; rfl
  unfold filterMapping
  split
  · rw [hsub, List.map_map]; rfl
  · rw [hsub]

/-- The fields are those asked for or, if none are, all keys which are no option or sub field. -/
theorem C43_fields (fields subFields : List Str) (m : Dict (Dict Str)) (f : Str) :
    f ∈ (filterMapping fields subFields m).2 ↔
      if fields = [] then '.' ∉ f ∧ ∃ s d v, (s, d) ∈ m ∧ (f, v) ∈ d else f ∈ fields := by
  unfold filterMapping
  cases fields with
  | nil =>
    simp only [List.isEmpty_nil, Bool.not_true, Bool.false_eq_true, if_false, if_true]
    rw [List.mem_flatMap]
    simp only [List.mem_filter, List.mem_map, Bool.not_eq_true', Prod.exists]
    have hdot : f.contains '.' = false ↔ '.' ∉ f := by
      rw [← Bool.not_eq_true, List.contains_iff_mem]
    constructor
    · rintro ⟨s, d, hm, ⟨k, v, hv, hk⟩, hd⟩
      subst hk
      exact ⟨hdot.1 hd, s, d, v, hm, hv⟩
    · rintro ⟨hd, s, d, v, hm, hv⟩
      exact ⟨s, d, hm, ⟨f, v, hv, rfl⟩, hdot.2 hd⟩
  | cons g gs =>
    simp

/-- Overrides replace the whole value, in every section, and change nothing else. -/
theorem C43_overrides (overrides : Dict Str) (hov : overrides.Pairwise (fun p q => p.1 ≠ q.1))
    (m : Dict (Dict Str)) (s k : Str) :
    entry (overrideMapping overrides m) s k =
      if (m.get? s).isSome then (overrides.get? k).or (entry m s k) else none := by
  unfold overrideMapping
  cases overrides with
  | nil =>
    simp only [List.isEmpty_nil, if_true]
    unfold entry
    cases m.get? s <;> simp [Dict.get?]
  | cons o os =>
    simp only [List.isEmpty_cons, Bool.false_eq_true, if_false]
    unfold entry
    rw [get?_map_pairs (fun d : Dict Str => (o :: os).foldl (fun d e => d.set e.1 e.2) d)]
    cases m.get? s with
    | none => rfl
    | some d =>
      simp only [Option.map_some, Option.bind_some, Option.isSome_some, if_true]
      exact get?_foldl_override (o :: os) d hov k

theorem C43_aux_set (d : Dict Str) (k v f : Str) :
    (∃ w, (f, w) ∈ d.set k v) ↔ f = k ∨ ∃ w, (f, w) ∈ d := by
  induction d with
  | nil => simp [Dict.set]
  | cons e d ih =>
    obtain ⟨k', v'⟩ := e
    unfold Dict.set
    split
    · next h =>
      have h : k' = k := by simpa using h
      subst h
      simp only [List.mem_cons, Prod.mk.injEq, exists_or]
      constructor
      · rintro (⟨w, h, _⟩ | h)
        · exact .inl h
        · exact .inr (.inr h)
      · rintro (h | ⟨w, h, _⟩ | h)
        · exact .inl ⟨v, h, rfl⟩
        · exact .inl ⟨v, h, rfl⟩
        · exact .inr h
    · simp only [List.mem_cons, Prod.mk.injEq, exists_or, ih]
      constructor
      · rintro (h | h | h)
        · exact .inr (.inl h)
        · exact .inl h
        · exact .inr (.inr h)
      · rintro (h | h | h)
        · exact .inr (.inl h)
        · exact .inl h
        · exact .inr (.inr h)

theorem C43_aux_fold (ov d : Dict Str) (f : Str) :
    (∃ w, (f, w) ∈ ov.foldl (fun d e => d.set e.1 e.2) d) ↔ (∃ w, (f, w) ∈ d) ∨ ∃ w, (f, w) ∈ ov := by
  induction ov generalizing d with
  | nil => simp
  | cons e ov ih =>
    rw [List.foldl_cons, ih, C43_aux_set]
    obtain ⟨k, v⟩ := e
    simp only [List.mem_cons, Prod.mk.injEq, exists_or]
    constructor
    · rintro ((h | h) | h)
      · exact .inr (.inl ⟨v, h, rfl⟩)
      · exact .inl h
      · exact .inr (.inr h)
    · rintro (h | ⟨w, h, _⟩ | h)
      · exact .inl (.inr h)
      · exact .inl (.inl h)
      · exact .inr h

/-- The mapping used: the value of a kept entry is the override, if there is one, or the one of the
file; the filters apply to overrides, too, and overrides count as fields. -/
theorem C43_mapping (fields subFields : List Str) (hf : ∀ f ∈ fields, '.' ∉ f) (overrides : Dict Str)
    (hov : overrides.Pairwise (fun p q => p.1 ≠ q.1)) (m : Dict (Dict Str)) (s k : Str) :
    let kept := (fields = [] ∨ ∃ f ∈ fields, keyOf f k) ∧
      (subFields = [] ∨ ∀ sub, sub ≠ [] → subKeyOf sub k → sub ∈ subFields)
    (kept → (m.get? s).isSome → entry (mappingAndFields m fields subFields overrides).1 s k =
      (overrides.get? k).or (entry m s k)) ∧
    (¬ (kept ∧ (m.get? s).isSome) → entry (mappingAndFields m fields subFields overrides).1 s k = none) ∧
    (k ∈ (mappingAndFields m fields subFields overrides).2 ↔
      if fields = [] then '.' ∉ k ∧ ((∃ s d v, (s, d) ∈ m ∧ (k, v) ∈ d) ∨ (m ≠ [] ∧ ∃ v, (k, v) ∈ overrides))
      else k ∈ fields) := by
  have h1 := C43_entries fields subFields hf (overrideMapping overrides m) s k
  have h2 := C43_overrides overrides hov m s k
  have h3 := C43_fields fields subFields (overrideMapping overrides m) k
  intro kept
  refine ⟨?_, ?_, ?_⟩
  · intro hk hs
    have := h1.1 hk
    rw [h2, if_pos hs] at this
    exact this
  · intro hn
    by_cases hk : kept
    · have := h1.1 hk
      rw [h2, if_neg (fun hs => hn ⟨hk, hs⟩)] at this
      exact this
    · exact h1.2 hk
  · refine h3.trans ?_
    split
    · refine and_congr Iff.rfl ?_
      unfold overrideMapping
      cases overrides with
      | nil => simp
      | cons o os =>
        simp only [List.isEmpty_cons, Bool.false_eq_true, if_false, List.mem_map, Prod.mk.injEq]
        constructor
        · rintro ⟨s', d, v, ⟨⟨s2, d2⟩, hm, e1, e2⟩, hv⟩
          subst e1 e2
          rcases (C43_aux_fold (o :: os) d2 k).1 ⟨v, hv⟩ with ⟨w, hw⟩ | h
          · exact .inl ⟨s2, d2, w, hm, hw⟩
          · exact .inr ⟨List.ne_nil_of_mem hm, h⟩
        · rintro (⟨s', d, v, hm, hv⟩ | ⟨hm, h⟩)
          · obtain ⟨w, hw⟩ := (C43_aux_fold (o :: os) d k).2 (.inl ⟨v, hv⟩)
            exact ⟨s', _, w, ⟨(s', d), hm, rfl, rfl⟩, hw⟩
          · obtain ⟨⟨s', d⟩, hm'⟩ := List.exists_mem_of_ne_nil m hm
            obtain ⟨w, hw⟩ := (C43_aux_fold (o :: os) d k).2 (.inr h)
            exact ⟨s', _, w, ⟨(s', d), hm', rfl, rfl⟩, hw⟩
    · exact Iff.rfl

/-- Disagreement: an option of a selected sub field is dropped, because it is taken for the entry of a
sub field with a longer name. -/
theorem C43_sub_field_option_dropped :
    let m : Dict (Dict Str) := [(c!"default", [(c!"aff", c!"x"), (c!"aff.sub.addr", c!"y"),
      (c!"aff.sub.addr.extract-regex", c!"z")])]
    entry (filterMapping [c!"aff"] [c!"addr"] m).1 c!"default" c!"aff.sub.addr" = some c!"y" ∧
    entry (filterMapping [c!"aff"] [c!"addr"] m).1 c!"default" c!"aff.sub.addr.extract-regex" = none := by
  decide +kernel

/-- A mapping with two fields and a sub field. -/
def exMapping : Dict (Dict Str) :=
  [(c!"default", [(c!"title", c!"//title"), (c!"title.regex", c!".*"), (c!"author", c!"//author"),
    (c!"author.sub.surname", c!"./surname"), (c!"author.sub.given", c!"./given")])]

example : mappingAndFields exMapping [c!"author"] [c!"surname"] [(c!"author", c!"//name")] =
    ([(c!"default", [(c!"author", c!"//name"), (c!"author.sub.surname", c!"./surname")])], [c!"author"]) := by
  decide +kernel

example : (mappingAndFields exMapping [] [] []).2 = [c!"title", c!"author"] := by decide +kernel

/-! ## C60 Key value options -/

/-- Pairs given as `key=value`, separated by `|`, are read as a dictionary, where the last of several
values for a key counts and a value may contain `=`. -/
theorem C60_pairs (cc : CharClass) (ps : List (Str × Str)) (hne : ps ≠ [])
    (hk : ∀ p ∈ ps, '=' ∉ p.1 ∧ '|' ∉ p.1 ∧ '|' ∉ p.2) :
    ∃ d, parseDict cc (joinStr c!"|" (ps.map (fun p => p.1 ++ '=' :: p.2))) = .ok d ∧
      ∀ k, d.get? k = (ps.reverse.find? (fun p => strip cc p.1 = k)).map (fun p => strip cc p.2) := by
  have hloop : ∀ (ps : List (Str × Str)) (d : Dict Str), (∀ p ∈ ps, '=' ∉ p.1) →
      ∃ d', parseDictLoop cc d (ps.map (fun p => p.1 ++ '=' :: p.2)) = .ok d' ∧
        ∀ k, d'.get? k = ((ps.reverse.find? (fun p => strip cc p.1 = k)).map (fun p => strip cc p.2)).or (d.get? k) := by
    intro ps
    induction ps with
    | nil => intro d _; exact ⟨d, rfl, by simp⟩
    | cons p ps ih =>
      intro d h
      obtain ⟨d', h1, h2⟩ := ih (d.set (strip cc p.1) (strip cc p.2)) (fun q hq => h q (by simp [hq]))
      refine ⟨d', ?_, ?_⟩
      · rw [List.map_cons, parseDictLoop]
        have : parseKeyValue cc (p.1 ++ '=' :: p.2) = .ok (strip cc p.1, strip cc p.2) := by
          unfold parseKeyValue
          rw [splitOnce_append '=' _ _ (h p (by simp))]
        rw [this]
        exact h1
      · intro k
        rw [h2 k, List.reverse_cons, List.find?_append]
        cases List.find? (fun p => decide (strip cc p.1 = k)) ps.reverse with
        | some q => simp
        | none =>
          by_cases he : strip cc p.1 = k
          · subst he; simp
          · rw [Dict.get?_set_ne _ _ (Ne.symm he)]
            simp [he]
  obtain ⟨d, h1, h2⟩ := hloop ps [] (fun p hp => (hk p hp).1)
  refine ⟨d, ?_, fun k => by rw [h2 k]; simp [Dict.get?]⟩
  unfold parseDict
  have hs : joinStr c!"|" (ps.map (fun p => p.1 ++ '=' :: p.2)) ≠ [] := by
    cases ps with
    | nil => exact absurd rfl hne
    | cons p ps =>
      cases ps with
      | nil => simp [joinStr]
      | cons q qs => simp [joinStr]
  rw [if_neg (by simpa using hs), splitOn_joinStr]
  · exact h1
  · simpa using hne
  · intro f hf
    rw [List.mem_map] at hf
    obtain ⟨p, hp, rfl⟩ := hf
    simp [(hk p hp).2]

/-- A part without `=` is an error, and nothing else is. -/
theorem C60_error (cc : CharClass) (fs : List Str) (hne : fs ≠ []) (hf : ∀ f ∈ fs, '|' ∉ f) :
    ((∃ d, parseDict cc (joinStr c!"|" fs) = .ok d) ↔ fs = [[]] ∨ ∀ f ∈ fs, '=' ∈ f) ∧
    ∀ e, parseDict cc (joinStr c!"|" fs) = .error e → e = .valueError := by
  have hpk : ∀ f, '=' ∉ f → parseKeyValue cc f = .error .valueError := by
    intro f h
    unfold parseKeyValue
    rw [splitOnce_of_not_mem _ _ h]
  have hpk' : ∀ f, '=' ∈ f → ∃ kv, parseKeyValue cc f = .ok kv := by
    intro f h
    rcases first_occurrence '=' f with h1 | ⟨g, r, h1, h2⟩
    · exact absurd h h1
    · unfold parseKeyValue
      rw [h1, splitOnce_append _ _ _ h2]
      exact ⟨_, rfl⟩
  have hloop : ∀ (fs : List Str) (d : Dict Str),
      ((∃ d', parseDictLoop cc d fs = .ok d') ↔ ∀ f ∈ fs, '=' ∈ f) ∧
      ∀ e, parseDictLoop cc d fs = .error e → e = .valueError := by
    intro fs
    induction fs with
    | nil => intro d; simp [parseDictLoop]
    | cons f fs ih =>
      intro d
      rw [parseDictLoop]
      by_cases h : '=' ∈ f
      · obtain ⟨kv, hkv⟩ := hpk' f h
        rw [hkv]
        obtain ⟨i1, i2⟩ := ih (d.set kv.1 kv.2)
        refine ⟨?_, i2⟩
        simp only [List.forall_mem_cons, h, true_and]
        exact i1
      · rw [hpk f h]
        simp [h]
  unfold parseDict
  by_cases hs : joinStr c!"|" fs = []
  · have : fs = [[]] := by
      have h := splitOn_joinStr '|' fs hne hf
      have hs' : joinStr ['|'] fs = [] := hs
      rw [hs'] at h
      exact h.symm
    subst this
    exact ⟨⟨fun _ => .inl rfl, fun _ => ⟨[], rfl⟩⟩, fun e h => by cases h⟩
  · rw [if_neg (by simpa using hs), splitOn_joinStr '|' fs hne hf]
    obtain ⟨i1, i2⟩ := hloop fs []
    refine ⟨?_, i2⟩
    rw [i1]
    constructor
    · intro h; exact .inr h
    · rintro (h | h)
      · subst h; exact absurd rfl hs
      · exact h

example : parseDict asciiClass c!"a = 1 |b=x=y|a=2" = .ok [(c!"a", c!"2"), (c!"b", c!"x=y")] := by
  decide +kernel

end Verif.Props
