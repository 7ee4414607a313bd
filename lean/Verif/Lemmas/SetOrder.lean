/-
Reading, preparing and writing documents depends on mappings and sets only through look-ups.
-/
import Verif.Lemmas.ConfigFile
import Verif.Props.ToolPaths
import Verif.Spec.SetOrder

namespace Verif
open Spec

/-! ### Look-ups -/

theorem SameSet.refl' (a : List Str) : SameSet a a := fun _ => Iff.rfl

theorem SameSet.contains {a b : List Str} (h : SameSet a b) (x : Str) : a.contains x = b.contains x := by
  rw [Bool.eq_iff_iff]
  simp only [List.contains_iff_mem]
  exact h x

theorem SameSet.isEmpty {a b : List Str} (h : SameSet a b) : a.isEmpty = b.isEmpty := by
  rw [Bool.eq_iff_iff]
  simp only [List.isEmpty_iff, List.eq_nil_iff_forall_not_mem]
  exact forall_congr' fun x => not_congr (h x)

/-- The value of the last pair with a key. -/
theorem get?_foldl_set_find {β : Type} (ps : List (Str × β)) (d : Dict β) (k : Str) :
    Dict.get? (ps.foldl (fun d p => d.set p.1 p.2) d) k =
      match ps.reverse.find? (fun p => p.1 == k) with
      | some p => some p.2
      | none => d.get? k := by
  induction ps generalizing d with
  | nil => rfl
  | cons p ps ih =>
    rw [List.foldl_cons, ih, List.reverse_cons, List.find?_append]
    cases hf : ps.reverse.find? (fun p => p.1 == k) with
    | some q => rfl
    | none =>
      by_cases hk : p.1 = k
      · subst hk
        simp
      · have hb : (p.1 == k) = false := by simpa using hk
        simp only [Option.none_or, List.find?_cons, hb, List.find?_nil]
        exact Dict.get?_set_ne _ _ (fun e => hk e.symm)

/-- The mapping with the paths for the fields is the mapping followed by the notes for the fields without a path,
in the order in which they come. -/
theorem addFieldPaths_append (m : Dict Str) (fs : List Str) :
    ∃ news : List Str, addFieldPaths m fs = m ++ news.map (fun f => (f, noteExpr f)) ∧
      ∀ f, f ∈ news ↔ f ∈ fs ∧ m.get? f = none := by
  induction fs generalizing m with
  | nil => exact ⟨[], by simp [addFieldPaths], by simp⟩
  | cons g fs ih =>
    have hstep : addFieldPaths m (g :: fs) =
        addFieldPaths (if (m.get? g).isSome then m else m.set g (noteExpr g)) fs := rfl
    cases hg : m.get? g with
    | some p =>
      obtain ⟨news, h1, h2⟩ := ih m
      refine ⟨news, ?_, ?_⟩
      · rw [hstep, hg]
        exact h1
      · intro f
        rw [h2]
        constructor
        · exact fun h => ⟨List.mem_cons_of_mem _ h.1, h.2⟩
        · rintro ⟨h, hn⟩
          rcases List.mem_cons.1 h with rfl | h
          · rw [hg] at hn; cases hn
          · exact ⟨h, hn⟩
    | none =>
      obtain ⟨news, h1, h2⟩ := ih (m.set g (noteExpr g))
      refine ⟨g :: news, ?_, ?_⟩
      · rw [hstep, hg]
        show addFieldPaths (m.set g (noteExpr g)) fs = _
        rw [h1]
        rw [set_new m g _ hg]
        simp
      · intro f
        rw [List.mem_cons, h2]
        by_cases hf : f = g
        · subst hf
          simp [hg]
        · rw [Dict.get?_set_ne _ _ hf]
          simp [hf]

theorem noteExpr_inj {f g : Str} (h : noteExpr f = noteExpr g) : f = g := by
  unfold noteExpr at h
  rw [List.append_assoc, List.append_assoc] at h
  exact List.append_cancel_right (List.append_cancel_left h)

/-- Two mappings which cannot be told apart by reading and writing documents. -/
structure SameLookup (m m' : Dict Str) : Prop where
  get : ∀ k, m.get? k = m'.get? k
  rev : ∀ v, (Doc.revMapping m).get? v = (Doc.revMapping m').get? v
  values : SameSet (m.map (·.2)) (m'.map (·.2))

theorem addFieldPaths_same (m : Dict Str) {fs fs' : List Str} (h : SameSet fs fs') :
    SameLookup (addFieldPaths m fs) (addFieldPaths m fs') := by
  obtain ⟨news, h1, h2⟩ := addFieldPaths_append m fs
  obtain ⟨news', h1', h2'⟩ := addFieldPaths_append m fs'
  have hn : SameSet news news' := fun f => by rw [h2, h2', h f]
  refine ⟨?_, ?_, ?_⟩
  · intro k
    rw [C108_fields, C108_fields]
    simp only [h k]
  · intro v
    have hfind : ∀ l : List Str, (∃ f, f ∈ l ∧ noteExpr f = v ∧
          (l.map (fun f => (noteExpr f, f))).reverse.find? (fun p => p.1 == v) = some (v, f)) ∨
        ((∀ f ∈ l, noteExpr f ≠ v) ∧ (l.map (fun f => (noteExpr f, f))).reverse.find? (fun p => p.1 == v) = none) := by
      intro l
      cases hf : (l.map (fun f => (noteExpr f, f))).reverse.find? (fun p => p.1 == v) with
      | some p =>
        refine .inl ⟨p.2, ?_⟩
        have hm := List.mem_of_find?_eq_some hf
        have hp := List.find?_some hf
        rw [List.mem_reverse, List.mem_map] at hm
        obtain ⟨f, hfl, rfl⟩ := hm
        have hv : noteExpr f = v := by simpa using hp
        exact ⟨hfl, hv, by rw [← hv]⟩
      | none =>
        refine .inr ⟨?_, rfl⟩
        intro f hfl
        rw [List.find?_eq_none] at hf
        have := hf (noteExpr f, f) (by rw [List.mem_reverse, List.mem_map]; exact ⟨f, hfl, rfl⟩)
        simpa using this
    have hrev : ∀ news : List Str, (Doc.revMapping (m ++ news.map (fun f => (f, noteExpr f)))).get? v =
        match (news.map (fun f => (noteExpr f, f))).reverse.find? (fun p => p.1 == v) with
        | some p => some p.2
        | none => (Doc.revMapping m).get? v := by
      intro news
      unfold Doc.revMapping Dict.ofPairs
      have hsw : (news.map (fun f => (f, noteExpr f))).map (fun p => (p.2, p.1)) = news.map (fun f => (noteExpr f, f)) := by
        rw [List.map_map]
        rfl
      rw [List.map_append, List.foldl_append, get?_foldl_set_find, hsw]
      cases (news.map (fun f => (noteExpr f, f))).reverse.find? (fun p => p.1 == v) <;> rfl
    rw [h1, h1', hrev, hrev]
    rcases hfind news with ⟨f, hf, hv, e⟩ | ⟨hno, e⟩ <;> rcases hfind news' with ⟨f', hf', hv', e'⟩ | ⟨hno', e'⟩
    · rw [e, e', noteExpr_inj (hv.trans hv'.symm)]
    · exact absurd hv (hno' f ((hn f).1 hf))
    · exact absurd hv' (hno f' ((hn f').2 hf'))
    · rw [e, e']
  · intro v
    rw [h1, h1']
    simp only [List.map_append, List.mem_append, List.map_map, List.mem_map]
    refine or_congr Iff.rfl ?_
    constructor
    · rintro ⟨f, hf, e⟩; exact ⟨f, (hn f).1 hf, e⟩
    · rintro ⟨f, hf, e⟩; exact ⟨f, (hn f).2 hf, e⟩

/-! ### Reading -/

mutual
theorem extractElem_congr (cc : CharClass) {P P' : List Str} (h : SameSet P P') :
    ∀ (e : Elem) (path : List Str) (b : Buf), extractElem cc P e path b = extractElem cc P' e path b
  | .mk _ _ text children tail, path, b => by
    have hc : ∀ t, P.contains t = P'.contains t := SameSet.contains h
    rw [extractElem, extractElem]
    simp only [hc, extractChildren_congr cc h children]
theorem extractChildren_congr (cc : CharClass) {P P' : List Str} (h : SameSet P P') :
    ∀ (es : List Elem) (path : List Str) (b : Buf), extractChildren cc P es path b = extractChildren cc P' es path b
  | [], _, _ => by rw [extractChildren, extractChildren]
  | .mk tag attrib text children tail :: es, path, b => by
    rw [extractChildren, extractChildren]
    simp only [extractElem_congr cc h (.mk tag attrib text children tail), extractChildren_congr cc h es]
end

theorem extractContainersFrom_congr (cc : CharClass) {P P' : List Str} (h : SameSet P P') (es : List Elem) (b : Buf) :
    extractContainersFrom cc P es b = extractContainersFrom cc P' es b := by
  induction es generalizing b with
  | nil => rfl
  | cons e es ih =>
    rw [extractContainersFrom, extractContainersFrom]
    simp only [extractElem_congr cc h, ih]

theorem preserveCurrentTags_congr {r r' : Dict Str} (h : ∀ v, r.get? v = r'.get? v) (d : Doc) :
    d.preserveCurrentTags r = d.preserveCurrentTags r' := by
  have hp : Doc.preserveToken r = Doc.preserveToken r' := by
    funext d i l
    unfold Doc.preserveToken Dict.getD
    simp only [h]
  unfold Doc.preserveCurrentTags
  rw [hp]

theorem loadDoc_congr (cfg : DocCfg) {m' : Dict Str} (h : SameLookup cfg.mapping m') (root : Elem) :
    loadDoc cfg root = loadDoc { cfg with mapping := m' } root := by
  unfold loadDoc extractContainers
  simp only [extractContainersFrom_congr cfg.cc h.values, preserveCurrentTags_congr h.rev]

/-! ### Writing -/

theorem tagRequiredPath_congr {m m' : Dict Str} (h : ∀ k, m.get? k = m'.get? k) (tag : Option Str) :
    tagRequiredPath m tag = tagRequiredPath m' tag := by
  cases tag with
  | none => unfold tagRequiredPath; simp only [h]
  | some t =>
    cases t with
    | nil => unfold tagRequiredPath; simp only [h]
    | cons c t => unfold tagRequiredPath Dict.getD; simp only [h]

theorem flushPending_congr (cc : CharClass) (m m' : Dict Str) (ok : Str → Dict Str → Bool) (req : List Str)
    (ss : List Str) (w : Writer) : flushPending ⟨cc, m, ok⟩ req ss w = flushPending ⟨cc, m', ok⟩ req ss w := by
  induction ss generalizing w with
  | nil => rfl
  | cons s ss ih =>
    rw [flushPending, flushPending]
    simp only [ih]

theorem writeToken_congr (cc : CharClass) {m m' : Dict Str} (ok : Str → Dict Str → Bool)
    (h : ∀ k, m.get? k = m'.get? k) (st : WState) (t : Tok) : writeToken ⟨cc, m, ok⟩ st t = writeToken ⟨cc, m', ok⟩ st t := by
  unfold writeToken effectiveSub
  simp only [tagRequiredPath_congr h, flushPending_congr cc m m' ok]

theorem writeTokens_congr (cc : CharClass) {m m' : Dict Str} (ok : Str → Dict Str → Bool)
    (h : ∀ k, m.get? k = m'.get? k) (ts : List Tok) (st : WState) :
    writeTokens ⟨cc, m, ok⟩ st ts = writeTokens ⟨cc, m', ok⟩ st ts := by
  induction ts generalizing st with
  | nil => rfl
  | cons t ts ih =>
    rw [writeTokens, writeTokens, writeToken_congr cc ok h]
    simp only [ih]

theorem writeLines_congr (cc : CharClass) {m m' : Dict Str} (ok : Str → Dict Str → Bool)
    (h : ∀ k, m.get? k = m'.get? k) (ls : List (List Tok)) (first : Bool) (st : WState) :
    writeLines ⟨cc, m, ok⟩ first st ls = writeLines ⟨cc, m', ok⟩ first st ls := by
  induction ls generalizing first st with
  | nil => rfl
  | cons l ls ih =>
    rw [writeLines, writeLines]
    simp only [writeTokens_congr cc ok h, ih]

theorem docRoot_congr (cfg : DocCfg) {m' : Dict Str} (h : ∀ k, cfg.mapping.get? k = m'.get? k) (root : Elem) (d : Doc) :
    docRoot cfg root d = docRoot { cfg with mapping := m' } root d := by
  unfold docRoot updatedTei linesToTei
  simp only [writeLines_congr cfg.cc cfg.okNode h, flushPending_congr cfg.cc cfg.mapping m' cfg.okNode]

/-! ### Preparing -/

theorem preserveTagFn_congr {i i' e e' : List Str} (hi : SameSet i i') (he : SameSet e e') :
    preserveTagFn i e = preserveTagFn i' e' := by
  funext t
  unfold preserveTagFn
  simp only [SameSet.contains hi, SameSet.contains he, SameSet.isEmpty hi]

theorem beforeAnnotator_congr {c c' : AnnotateCfg} (h1 : c.preserveTags = c'.preserveTags)
    (h2 : SameSet c.fields c'.fields) (h3 : SameSet c.preserveFields c'.preserveFields)
    (h4 : c.preserveSubTags = c'.preserveSubTags) (h5 : SameSet c.noPreserveSubFields c'.noPreserveSubFields) (d : Doc) :
    beforeAnnotator c d = beforeAnnotator c' d := by
  have ha : ∀ d, applyPreservedFields c.preserveFields d = applyPreservedFields c'.preserveFields d := by
    intro d
    have hs : applyPreservedStep c.preserveFields = applyPreservedStep c'.preserveFields := by
      funext d i
      unfold applyPreservedStep
      simp only [SameSet.contains h3]
    unfold applyPreservedFields
    rw [hs]
  have hx : SameSet (c.fields.filter (fun f => !c.preserveFields.contains f))
      (c'.fields.filter (fun f => !c'.preserveFields.contains f)) := by
    intro x
    simp only [List.mem_filter, SameSet.contains h3]
    rw [h2 x]
  unfold beforeAnnotator prepareDoc
  simp only [h1, h4, ha, SameSet.isEmpty h3, SameSet.isEmpty h5, preserveTagFn_congr h3 hx,
    preserveTagFn_congr (SameSet.refl' []) h5]

end Verif
