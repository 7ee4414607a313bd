/-
C135: labels of fields for which a tool has no element can be read back as well.
-/
import Verif.Lemmas.ReloadFields
import Verif.Props.ShippedConfig

namespace Verif
open Spec

theorem mem_newFields {base : Dict Str} {fields : List Str} {f : Str} :
    f ∈ newFields base fields ↔ f ∈ fields ∧ base.get? f = none := by
  unfold newFields
  rw [List.mem_filter, Option.isNone_iff_eq_none]

/-- What the tools have in common. -/
theorem toolTags_notes (base : Dict Str) (own : List (Option Str)) (h : (base, own) ∈ toolTags) :
    distinctB base own (none :: base.map (fun p => some p.1)) = true ∧ (base.get? []).isSome = true ∧
    (∀ v ∈ own, tagRequiredPath base v ≠ []) ∧
    ∀ s ∈ noteLike base (own ++ none :: base.map (fun p => some p.1)), startsWith c!"note[@type=\"" s = true →
      s = noteExpr c!"other" ∨ s = noteExpr c!"line_no" ∧ (base.get? c!"line_no").isSome = true := by
  have key : ∀ m ∈ toolTags, distinctB m.1 m.2 (none :: m.1.map (fun p => some p.1)) = true ∧ (m.1.get? []).isSome = true ∧
      (∀ v ∈ m.2, tagRequiredPath m.1 v ≠ []) ∧
      ∀ s ∈ noteLike m.1 (m.2 ++ none :: m.1.map (fun p => some p.1)), startsWith c!"note[@type=\"" s = true →
        s = noteExpr c!"other" ∨ s = noteExpr c!"line_no" ∧ (m.1.get? c!"line_no").isSome = true := by
    decide +kernel
  exact key _ h

theorem get?_of_key {base : Dict Str} {f : Str} (h : f ∈ base.map (·.1)) : (base.get? f).isSome = true := by
  induction base with
  | nil => cases h
  | cons p base ih =>
    show (if p.1 = f then some p.2 else Dict.get? base f).isSome = true
    split
    · rfl
    · next hne =>
      rcases List.mem_cons.1 h with e | h
      · exact absurd e.symm hne
      · exact ih h

theorem key_of_get? {base : Dict Str} {f p : Str} (h : base.get? f = some p) : f ∈ base.map (·.1) := by
  induction base with
  | nil => cases h
  | cons q base ih =>
    have h : (if q.1 = f then some q.2 else Dict.get? base f) = some p := h
    split at h
    · next e => exact List.mem_cons.2 (.inl e.symm)
    · exact List.mem_cons_of_mem _ (ih h)

/-- The labels of a tool with further fields can be told apart. -/
theorem readable_tellsApart {mapping : Dict Str} {mains : List (Option Str)} (h : ReadableMapping mapping mains) :
    TellsApart mapping (fun v => v ∈ mains) (ReadableSub mapping) := by
  obtain ⟨base, own, fields, ⟨htool, hnames⟩, rfl, rfl⟩ := h
  obtain ⟨k1, k2, k3, k4⟩ := toolTags_notes base own htool
  obtain ⟨news, e, hmem⟩ := addFieldPaths_append base fields
  have hfields : ∀ f, f ∈ newFields base fields ↔ f ∈ news := fun f => by rw [mem_newFields, hmem]
  have hnews : ∀ f ∈ news, base.get? f = none ∧ OneStep f ∧
      noteExpr f ∉ noteLike base (own ++ none :: base.map (fun p => some p.1)) ∧
      some f ∉ own ∧ some f ∉ none :: base.map (fun p => some p.1) := by
    intro f hf
    have hb := ((hmem f).1 hf).2
    obtain ⟨n1, n2, n3⟩ := hnames f ((hfields f).2 hf)
    refine ⟨hb, n1, fun hm => ?_, n3, fun hm => ?_⟩
    · rcases k4 _ hm (by simp [startsWith, noteExpr]) with h | ⟨h, h'⟩
      · exact n2 (noteExpr_inj h)
      · rw [← noteExpr_inj h, hb] at h'
        cases h'
    · rcases List.mem_cons.1 hm with hm | hm
      · cases hm
      · obtain ⟨p, hp, e⟩ := List.mem_map.1 hm
        have := get?_of_key (base := base) (f := f) (List.mem_map.2 ⟨p, hp, Option.some.inj e⟩)
        rw [hb] at this
        cases this
  have hall := tellsApart_notes (tellsApart_of_distinctB k1) k2 k3 hnews
  have hmains : (fun v => v ∈ own ++ (newFields base fields).map some) = (fun v => v ∈ own ++ news.map some) := by
    funext v
    simp only [List.mem_append, List.mem_map, hfields]
  rw [e, hmains]
  refine tellsApart_subs hall (fun v hv => ?_) (fun s hs => ?_)
  · rcases List.mem_append.1 hv with hv | hv
    · rw [required_notes k2 (fun f hf e => absurd (e ▸ hv) (hnews f hf).2.2.2.1)]
      exact k3 v hv
    · obtain ⟨f, hf, rfl⟩ := List.mem_map.1 hv
      rw [required_note hf (hnews f hf).1 (fun e => by have := (hnews f hf).1; rw [e] at this; rw [this] at k2; cases k2) (hnews f hf).2.1]
      exact List.cons_ne_nil _ _
  · cases s with
    | none => exact .inl (List.mem_append_left _ List.mem_cons_self)
    | some s =>
      by_cases hk : s ∈ (base ++ news.map (fun f => (f, noteExpr f))).map (·.1)
      · left
        rw [List.map_append, List.mem_append] at hk
        rcases hk with hk | hk
        · obtain ⟨p, hp, rfl⟩ := List.mem_map.1 hk
          exact List.mem_append_left _ (List.mem_cons_of_mem _ (List.mem_map_of_mem (f := fun p => some p.1) hp))
        · rw [List.map_map] at hk
          obtain ⟨f, hf, rfl⟩ := List.mem_map.1 hk
          exact List.mem_append_right _ (List.mem_map_of_mem hf)
      · right
        have h1 : OneStep s := (hs s rfl).resolve_left hk
        have hnone : Dict.get? (base ++ news.map (fun f => (f, noteExpr f))) s = none := by
          cases hg : Dict.get? (base ++ news.map (fun f => (f, noteExpr f))) s with
          | none => rfl
          | some p => exact absurd (key_of_get? hg) hk
        cases s with
        | nil =>
          rw [get?_notes] at hnone
          cases hb : base.get? [] with
          | none => rw [hb] at k2; cases k2
          | some p => rw [hb] at hnone; cases hnone
        | cons c t =>
          show (splitPath ((Dict.get? _ (c :: t)).getD (c :: t))).length ≤ 1
          rw [hnone]
          show (splitPath (c :: t)).length ≤ 1
          rw [splitPath_oneStep h1]
          exact Nat.le_refl _

theorem readable_distinct {cc : CharClass} {mapping : Dict Str} {mains : List (Option Str)} (h : ReadableMapping mapping mains)
    (toks : List Tok) (ht : ∀ t ∈ toks, blank cc t = false → mainValue t ∈ mains ∧ ReadableSub mapping (subValue t)) :
    ∀ t ∈ toks, blank cc t = false → Distinct cc mapping toks t :=
  fun t hm hb => distinct_of_tellsApart (readable_tellsApart h) toks ht t hm hb

/-! ## C135 Labels of further fields can be read back -/

/-- **C135.** Whatever a document contains, if its main tags are those of the tool which can be read back or of fields for
which the tool has no element, then saving and loading it keeps the main tags. -/
theorem C135_labels (cfg : DocCfg) (mains : List (Option Str)) (root c root' : Elem) (d : Doc)
    (hm : ReadableMapping cfg.mapping mains) (hp : cfg.preserveTags = true) (hc : findAll cfg.containerPath root = [c])
    (hs : docRoot cfg root d = .ok root')
    (ht : ∀ t ∈ d.lineToks.flatten, blank cfg.cc t = false → mainValue t ∈ mains ∧ ReadableSub cfg.mapping (subValue t)) :
    ∃ d', loadDoc cfg root' = .ok d' ∧ labelledText cfg.cc d' = labelledText cfg.cc d :=
  C105_round_trip cfg root c root' d hp hc hs (readable_distinct hm _ ht)

/-- **C135.** And the entities start at the same places. -/
theorem C135_entities (cfg : DocCfg) (mains : List (Option Str)) (root c root' : Elem) (d : Doc)
    (hm : ReadableMapping cfg.mapping mains) (hp : cfg.preserveTags = true) (hc : findAll cfg.containerPath root = [c])
    (hs : docRoot cfg root d = .ok root')
    (ht : ∀ t ∈ d.lineToks.flatten, blank cfg.cc t = false → mainValue t ∈ mains ∧ ReadableSub cfg.mapping (subValue t))
    (hsub : ∀ t ∈ d.lineToks.flatten, blank cfg.cc t = false → SubBelow cfg.mapping t) :
    ∃ d', loadDoc cfg root' = .ok d' ∧ entityText cfg.cc d' = entityText cfg.cc d :=
  C106_entities cfg root c root' d hp hc hs (readable_distinct hm _ ht) hsub

/-- The fields of the shipped mapping. -/
def shippedFields : List Str := (shippedOptions.map (·.1)).filter (fun k => !k.contains '.')

instance (name : Str) : Decidable (OneStep name) := inferInstanceAs (Decidable (∀ c ∈ name, _))

/-- **C135.** With all fields of the shipped mapping, as without the option for fields, the labels of all of them can be
read back by each of the tools which take their elements from the fields, except that of list items by the tool for
the full text. -/
theorem C135_shipped (base : Dict Str) (own : List (Option Str)) (h : (base, own) ∈ toolTags) (hs : base ≠ segmentationMapping) :
    ReadableMapping (addFieldPaths base shippedFields) (own ++ (newFields base shippedFields).map some) ∧
    ∀ f ∈ shippedFields, some f ∈ own ++ (newFields base shippedFields).map some ∨ f = c!"list_item" ∧ base = fulltextMapping := by
  have key : ∀ m ∈ toolTags, m.1 ≠ segmentationMapping →
      (∀ f ∈ newFields m.1 shippedFields, OneStep f ∧ f ≠ c!"other" ∧ some f ∉ m.2) ∧
      ∀ f ∈ shippedFields, some f ∈ m.2 ++ (newFields m.1 shippedFields).map some ∨ f = c!"list_item" ∧ m.1 = fulltextMapping := by
    decide +kernel
  exact ⟨⟨base, own, shippedFields, ⟨h, (key _ h hs).1⟩, rfl, rfl⟩, (key _ h hs).2⟩

/-! ### Examples -/

/-- The header tool with two fields it has no elements for. -/
def exFieldsCfg : DocCfg :=
  ⟨asciiClass, addFieldPaths headerMapping [c!"title", c!"doi", c!"keywords"], fun _ _ => true, [c!"text"], true⟩

/-- The labels of a document with these fields. -/
def exFieldsMains : List (Option Str) :=
  [none, some c!"title", some c!"abstract", some c!"author", some c!"author_aff", some c!"line_no", some c!"doi", some c!"keywords"]

/-- A document with the labels of two of the fields, text without a label and a sub label that has no element. -/
def exFieldsDoc (d : Doc) : Doc :=
  ((d.setTag 0 (some c!"b-doi")).setTag 2 (some c!"b-title")).setTag 2 (some c!"b-xyz") (some subLevel)

instance (mapping : Dict Str) (sub : Option Str) : Decidable (ReadableSub mapping sub) :=
  match sub with
  | none => .isTrue (fun _ h => nomatch h)
  | some s => decidable_of_iff (s ∈ mapping.map (·.1) ∨ OneStep s)
      ⟨fun h _ e => Option.some.inj e ▸ h, fun h => h s rfl⟩

/-- The conditions are met by this document. -/
example : ReadableMapping exFieldsCfg.mapping exFieldsMains ∧
    ∃ d, loadDoc exFieldsCfg (exReloadRoot c!"a b c") = .ok d ∧
      (∃ root', docRoot exFieldsCfg (exReloadRoot c!"a b c") (exFieldsDoc d) = .ok root') ∧
      ∀ t ∈ (exFieldsDoc d).lineToks.flatten, mainValue t ∈ exFieldsMains ∧ ReadableSub exFieldsCfg.mapping (subValue t) := by
  refine ⟨⟨headerMapping, _, [c!"title", c!"doi", c!"keywords"], ⟨List.mem_cons_self, by decide +kernel⟩, rfl, by decide +kernel⟩, ?_⟩
  obtain ⟨d, h, h1, h2⟩ : ∃ d, loadDoc exFieldsCfg (exReloadRoot c!"a b c") = .ok d ∧
      (docRoot exFieldsCfg (exReloadRoot c!"a b c") (exFieldsDoc d)).toOption.isSome = true ∧
      ∀ t ∈ (exFieldsDoc d).lineToks.flatten, mainValue t ∈ exFieldsMains ∧ ReadableSub exFieldsCfg.mapping (subValue t) :=
    exists_of_okAnd (by decide +kernel)
  refine ⟨d, h, ?_, h2⟩
  generalize docRoot exFieldsCfg (exReloadRoot c!"a b c") (exFieldsDoc d) = x at h1
  cases x with
  | error e => cases h1
  | ok r => exact ⟨r, rfl⟩

/-- The labels before saving and after loading. -/
example : ∃ r, exReload exFieldsCfg (exReloadRoot c!"a b c") [(0, none, c!"b-doi"), (2, none, c!"b-title")] = .ok r ∧
    r.1 = [('a', some c!"doi"), ('b', some c!"title"), ('c', none)] ∧ r.2 = r.1 :=
  exists_of_okAnd (by decide +kernel)

/-- **C135.** Not for a field with the name `other`: its element is that of text without a label. -/
theorem C135_other_lost :
    ∃ r, exReload ⟨asciiClass, addFieldPaths headerMapping [c!"other"], fun _ _ => true, [c!"text"], true⟩ (exReloadRoot c!"a b")
      [(0, none, c!"b-other")] = .ok r ∧
      r = ([('a', some c!"other"), ('b', none)], [('a', some c!"other"), ('b', some c!"other")]) :=
  exists_of_okAnd (by decide +kernel)

/-- The error saving a document raises, if any. -/
def exSaveError (cfg : DocCfg) (root : Elem) (tags : List (Nat × Option Nat × Str)) : Option Err :=
  match loadDoc cfg root with
  | .error _ => none
  | .ok d =>
    match docRoot cfg root (tags.foldl (fun d p => d.setTag p.1 (some p.2.2) p.2.1) d) with
    | .error e => some e
    | .ok _ => none

/-- **C135.** And a document with text of a field that has a slash in its name cannot be saved at all. -/
theorem C135_slash_fails :
    exSaveError ⟨asciiClass, addFieldPaths headerMapping [c!"a/b"], fun _ _ => true, [c!"text"], true⟩ (exReloadRoot c!"a b")
      [(0, none, c!"b-a/b")] = some .valueError := by
  decide +kernel

end Verif
