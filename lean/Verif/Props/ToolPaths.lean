/-
C108: the elements the tags of a tool are written to.
-/
import Verif.Model.ToolPaths
import Verif.Spec.ToolPaths
import Verif.Props.TeiWrite
import Verif.Lemmas.Tags

namespace Verif
open Spec

theorem resolve_skip (cc : CharClass) (name url : Str) (p : Option Char) (a s : Str) :
    ∃ q, resolveNamespaceAux cc name url p a.length (a ++ s) = resolveNamespaceAux cc name url q 0 s ∧
      (a ≠ [] → q = a.getLast?) := by
  induction a generalizing p with
  | nil => exact ⟨p, rfl, fun h => absurd rfl h⟩
  | cons c a ih =>
    obtain ⟨q, h1, h2⟩ := ih (some c)
    cases a with
    | nil => exact ⟨some c, rfl, fun _ => rfl⟩
    | cons d a =>
      refine ⟨q, ?_, fun _ => ?_⟩
      · rw [← h1]; rfl
      · rw [h2 (by simp)]; simp

/-- A prefix at a word boundary is replaced. -/
theorem resolve_prefix (cc : CharClass) (name url : Str) (hname : name ≠ []) (p : Option Char) (hp : p.any cc.isWord = false) (s : Str) :
    ∃ q, resolveNamespaceAux cc name url p 0 (name ++ c!":" ++ s) =
      c!"{" ++ url ++ c!"}" ++ resolveNamespaceAux cc name url q 0 s := by
  cases name with
  | nil => exact absurd rfl hname
  | cons c n =>
    rw [List.cons_append, List.cons_append, resolveNamespaceAux, if_pos]
    · obtain ⟨q, h, _⟩ := resolve_skip cc (c :: n) url (some c) (n ++ c!":") s
      refine ⟨q, ?_⟩
      rw [← h]
      simp
    · rw [hp]
      simp [startsWith]

/-- Text without a prefix is kept, up to the next separator. -/
theorem resolve_plain (cc : CharClass) (name url : Str) (hname : '/' ∉ name) (e : Str) (he : ':' ∉ e) (s : Str)
    (hs : s = [] ∨ ∃ r, s = '/' :: r) (p : Option Char) :
    ∃ q, resolveNamespaceAux cc name url p 0 (e ++ s) = e ++ resolveNamespaceAux cc name url q 0 s := by
  induction e generalizing p with
  | nil => exact ⟨p, rfl⟩
  | cons c e ih =>
    obtain ⟨q, hq⟩ := ih (fun h => he (List.mem_cons_of_mem _ h)) (some c)
    refine ⟨q, ?_⟩
    rw [List.cons_append, resolveNamespaceAux, if_neg, hq, List.cons_append]
    rw [Bool.and_eq_true, not_and]
    intro h
    exfalso
    obtain ⟨r, hr⟩ := startsWith_iff.1 h
    rw [List.append_assoc, ← List.cons_append] at hr
    rcases List.append_eq_append_iff.1 hr with ⟨a, h1, h2⟩ | ⟨a, h1, h2⟩
    · cases a with
      | nil =>
        rw [List.nil_append] at h2
        rcases hs with rfl | ⟨r', rfl⟩
        · cases h2
        · simp at h2
      | cons x a =>
        rw [List.cons_append, List.cons_append, List.cons.injEq] at h2
        apply he
        rw [h1, ← h2.1]
        simp
    · rcases hs with rfl | ⟨r', rfl⟩
      · cases a with
        | nil => simp at h2
        | cons x a => simp at h2
      · cases a with
        | nil =>
          simp at h2
        | cons x a =>
          rw [List.cons_append, List.cons.injEq] at h2
          apply hname
          rw [h1, ← h2.1]
          simp

theorem resolve_steps (cc : CharClass) (name url : Str) (hname : name ≠ []) (hslash : '/' ∉ name)
    (hw : cc.isWord '/' = false) (steps : List PathStep) (h : ∀ s ∈ steps, PlainExpr s.expr) (p : Option Char)
    (hp : p.any cc.isWord = false) :
    resolveNamespaceAux cc name url p 0 (joinWith c!"/" (steps.map (PathStep.short name))) =
      joinWith c!"/" (steps.map (PathStep.full url)) := by
  have one : ∀ (st : PathStep), PlainExpr st.expr → ∀ (s : Str), (s = [] ∨ ∃ r, s = '/' :: r) → ∀ (p : Option Char),
      p.any cc.isWord = false → ∃ q, resolveNamespaceAux cc name url p 0 (st.short name ++ s) =
        st.full url ++ resolveNamespaceAux cc name url q 0 s := by
    intro st hst s hs p hp
    have hc : ':' ∉ st.expr := fun hm => (hst _ hm).1 rfl
    unfold PathStep.short PathStep.full
    cases st.prefixed with
    | false => exact resolve_plain cc name url hslash st.expr hc s hs p
    | true =>
      obtain ⟨q, h1⟩ := resolve_prefix cc name url hname p hp (st.expr ++ s)
      obtain ⟨q', h2⟩ := resolve_plain cc name url hslash st.expr hc s hs q
      refine ⟨q', ?_⟩
      rw [if_pos rfl, if_pos rfl]
      rw [List.append_assoc _ st.expr s, h1, h2, List.append_assoc]
      simp
  induction steps generalizing p with
  | nil => rfl
  | cons st steps ih =>
    cases steps with
    | nil =>
      obtain ⟨q, hq⟩ := one st (h st (List.mem_cons_self ..)) [] (.inl rfl) p hp
      simp only [List.map_cons, List.map_nil, joinWith]
      simp only [List.append_nil] at hq
      rw [hq, resolveNamespaceAux, List.append_nil]
    | cons st' steps =>
      have ih' := ih (fun s hs => h s (List.mem_cons_of_mem _ hs)) (some '/') (by simpa using hw)
      simp only [List.map_cons, joinWith, List.append_assoc] at ih' ⊢
      obtain ⟨q, hq⟩ := one st (h st (List.mem_cons_self ..))
        (c!"/" ++ joinWith c!"/" (st'.short name :: steps.map (PathStep.short name))) (.inr ⟨_, rfl⟩) p hp
      rw [hq]
      congr 1
      rw [List.singleton_append, resolveNamespaceAux, if_neg, ih']
      · rfl
      · rw [Bool.and_eq_true, not_and]
        intro hh
        exfalso
        obtain ⟨r, hr⟩ := startsWith_iff.1 hh
        cases name with
        | nil => exact hname rfl
        | cons c n =>
          simp only [List.cons_append, List.cons.injEq] at hr
          exact hslash (by rw [hr.1]; exact List.mem_cons_self ..)

/-- C108: the steps of a path with prefixes are the elements of that name space, however many there
are, although the URL of the name space contains slashes. -/
theorem C108_paths (cc : CharClass) (name url : Str) (hname : name ≠ []) (hslash : '/' ∉ name)
    (hurl : ∀ c ∈ url, c ≠ '{' ∧ c ≠ '}') (hw : cc.isWord '/' = false)
    (steps : List PathStep) (hne : steps ≠ []) (h : ∀ s ∈ steps, PlainExpr s.expr) :
    splitPath (resolveNamespaces cc [(name, url)] (joinWith c!"/" (steps.map (PathStep.short name)))) =
      steps.map (PathStep.full url) := by
  have hr := resolve_steps cc name url hname hslash hw steps h none rfl
  show splitPath (resolveNamespaceAux cc name url none 0 (joinWith c!"/" (steps.map (PathStep.short name)))) = _
  rw [hr]
  apply Props.C56_path_round_trip_partial _ (by simpa using hne)
  intro f hf
  obtain ⟨st, hst, rfl⟩ := List.mem_map.1 hf
  have plain : ∀ e : Str, (∀ c ∈ e, c ≠ '/' ∧ c ≠ '{' ∧ c ≠ '}') → Props.slashesEnclosed false e = true := by
    intro e he
    induction e with
    | nil => rfl
    | cons c e ih =>
      obtain ⟨h1, h2, h3⟩ := he c (List.mem_cons_self ..)
      rw [Props.slashesEnclosed, if_neg h2, if_neg h3, ih (fun c hc => he c (List.mem_cons_of_mem _ hc))]
      simp [h1]
  have inside : ∀ (u r : Str), (∀ c ∈ u, c ≠ '{' ∧ c ≠ '}') → Props.slashesEnclosed true (u ++ '}' :: r) = Props.slashesEnclosed false r := by
    intro u r hu
    induction u with
    | nil =>
      rw [List.nil_append, Props.slashesEnclosed]
      simp
    | cons c u ih =>
      obtain ⟨h2, h3⟩ := hu c (List.mem_cons_self ..)
      rw [List.cons_append, Props.slashesEnclosed, if_neg h2, if_neg h3, ih (fun c hc => hu c (List.mem_cons_of_mem _ hc))]
      simp
  have hexpr := plain st.expr (fun c hc => (h st hst c hc).2)
  unfold PathStep.full
  cases st.prefixed with
  | false => exact hexpr
  | true =>
    rw [if_pos rfl]
    rw [show c!"{" ++ url ++ c!"}" ++ st.expr = '{' :: (url ++ '}' :: st.expr) by simp, Props.slashesEnclosed, if_pos rfl,
      inside _ _ hurl, hexpr]
    simp

theorem get?_resolveMapping (cc : CharClass) (ns : List (Str × Str)) (mapping : Dict Str) (tag : Str) :
    (resolveMapping cc ns mapping).get? tag = (mapping.get? tag).map (resolveNamespaces cc ns) := by
  unfold resolveMapping
  induction mapping with
  | nil => rfl
  | cons p m ih =>
    obtain ⟨k, v⟩ := p
    simp only [List.map_cons, Dict.get?]
    split
    · rfl
    · exact ih

/-- C108: the path of a tag of a tool with name space prefixes. -/
theorem C108_tag_paths (cc : CharClass) (hw : cc.isWord '/' = false) (mapping : Dict Str) (tag : Str) (htag : tag ≠ [])
    (steps : List PathStep) (hne : steps ≠ []) (h : ∀ s ∈ steps, PlainExpr s.expr)
    (hget : mapping.get? tag = some (joinWith c!"/" (steps.map (PathStep.short c!"tei")))) :
    tagRequiredPath (resolveMapping cc teiNsMap mapping) (some tag) =
      steps.map (PathStep.full c!"http://www.tei-c.org/ns/1.0") := by
  cases tag with
  | nil => exact absurd rfl htag
  | cons c t =>
    have hg : (resolveMapping cc teiNsMap mapping).get? (c :: t) =
        some (resolveNamespaces cc teiNsMap (joinWith c!"/" (steps.map (PathStep.short c!"tei")))) := by
      rw [get?_resolveMapping, hget]
      rfl
    unfold tagRequiredPath Dict.getD
    simp only [hg, Option.getD_some]
    exact C108_paths cc c!"tei" _ (by decide) (by decide) (by decide) hw steps hne h

/-- C108: a field with a path keeps it, any other field of the tool is written to a note of its own. -/
theorem C108_fields (mapping : Dict Str) (fields : List Str) (tag : Str) :
    (addFieldPaths mapping fields).get? tag =
      match mapping.get? tag with
      | some path => some path
      | none => if tag ∈ fields then some (noteExpr tag) else none := by
  unfold addFieldPaths
  induction fields generalizing mapping with
  | nil =>
    rw [List.foldl_nil]
    cases mapping.get? tag <;> rfl
  | cons f fs ih =>
    rw [List.foldl_cons, ih]
    by_cases hf : (mapping.get? f).isSome = true
    · rw [if_pos hf]
      cases hm : mapping.get? tag with
      | some p => rfl
      | none =>
        have : tag ≠ f := by
          intro e
          rw [← e, hm] at hf
          cases hf
        simp only [List.mem_cons, this, false_or]
    · rw [if_neg hf]
      by_cases he : tag = f
      · subst he
        have hm : mapping.get? tag = none := by simpa using hf
        rw [hm, Dict.get?_set_self]
        simp [noteExpr]
      · rw [Dict.get?_set_ne _ _ he]
        cases hm : mapping.get? tag with
        | some p => rfl
        | none => simp only [List.mem_cons, he, false_or]

/-- C108: the note of a field, in any mapping: it is not in the name space of the other elements. -/
theorem C108_field_note (mapping : Dict Str) (fields : List Str) (field : Str) (hf : field ∈ fields) (hne : field ≠ [])
    (hnew : mapping.get? field = none) (hplain : ∀ c ∈ field, c ≠ '/' ∧ c ≠ '{' ∧ c ≠ '}') :
    tagRequiredPath (addFieldPaths mapping fields) (some field) = [noteExpr field] := by
  cases field with
  | nil => exact absurd rfl hne
  | cons c t =>
    show splitPath (((addFieldPaths mapping fields).get? (c :: t)).getD (c :: t)) = _
    rw [C108_fields, hnew]
    simp only [if_pos hf, Option.getD_some]
    have := Props.C56_path_round_trip_partial [noteExpr (c :: t)] (by simp) ?_
    · exact this
    · intro e he
      rw [List.mem_singleton] at he
      subst he
      have plain : ∀ e : Str, (∀ c ∈ e, c ≠ '/' ∧ c ≠ '{' ∧ c ≠ '}') → Props.slashesEnclosed false e = true := by
        intro e he
        induction e with
        | nil => rfl
        | cons c e ih =>
          obtain ⟨h1, h2, h3⟩ := he c (List.mem_cons_self ..)
          rw [Props.slashesEnclosed, if_neg h2, if_neg h3, ih (fun c hc => he c (List.mem_cons_of_mem _ hc))]
          simp [h1]
      apply plain
      unfold noteExpr
      intro x hx
      rcases List.mem_append.1 hx with hx | hx
      · rcases List.mem_append.1 hx with hx | hx
        · exact (by decide : ∀ x ∈ c!"note[@type=\"", x ≠ '/' ∧ x ≠ '{' ∧ x ≠ '}') x hx
        · exact hplain x hx
      · exact (by decide : ∀ x ∈ c!"\"]", x ≠ '/' ∧ x ≠ '{' ∧ x ≠ '}') x hx

example : ∃ steps : List PathStep, steps.length = 3 ∧ (∀ s ∈ steps, s.prefixed = true) ∧
    affiliationMapping.get? c!"author_aff-address-city" = some (joinWith c!"/" (steps.map (PathStep.short c!"tei"))) :=
  ⟨[⟨true, c!"affiliation"⟩, ⟨true, c!"address"⟩, ⟨true, c!"settlement"⟩], rfl, by decide, by decide⟩

/-- In a tool writing elements with a name space, text without a tag is written to a note of that
name space, but the text of a field without a path to a note outside of it. -/
theorem C108_note_without_namespace :
    tagRequiredPath (addFieldPaths (resolveMapping asciiClass teiNsMap referenceMapping) [c!"x"]) none =
      [c!"{http://www.tei-c.org/ns/1.0}note[@type=\"other\"]"] ∧
    tagRequiredPath (addFieldPaths (resolveMapping asciiClass teiNsMap referenceMapping) [c!"x"]) (some c!"x") =
      [c!"note[@type=\"x\"]"] := by
  decide +kernel

end Verif
