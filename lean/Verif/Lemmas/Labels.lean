/-
Lemmas about the tools: where labels come from.
-/
import Verif.Lemmas.Tools
import Verif.Lemmas.ExtendTags

namespace Verif

/-- The value of a tag, unless it is empty, has a property. -/
def OkTag (P : Str → Prop) (t : Option Str) : Prop := ∀ v, stripTagPrefix t = some v → v ≠ [] → P v

/-- All main and sub tags of a document, current and preserved ones, have values with properties. -/
structure LabelsIn (P Q : Str → Prop) (d : Doc) : Prop where
  main : ∀ i, OkTag P (d.getTag i) ∧ OkTag P (d.getPreservedTag i)
  sub : ∀ i, OkTag Q (d.getSubTag i) ∧ OkTag Q (d.getPreservedTag i (some subLevel))

theorem okTag_none (P : Str → Prop) : OkTag P none := by intro v h; cases h

theorem strip_addB (x : Option Str) : stripTagPrefix (addTagPrefix x (some bPrefix)) = x := by
  cases x with
  | none => rfl
  | some v =>
    cases v with
    | nil => rfl
    | cons c v =>
      show stripTagPrefix (some (bPrefix ++ c :: v)) = _
      unfold stripTagPrefix splitTagPrefix
      simp [truthy, bPrefix, startsWith, List.isPrefixOf]

theorem strip_addI (x : Option Str) : stripTagPrefix (addTagPrefix x (some iPrefix)) = x := by
  cases x with
  | none => rfl
  | some v =>
    cases v with
    | nil => rfl
    | cons c v =>
      show stripTagPrefix (some (iPrefix ++ c :: v)) = _
      unfold stripTagPrefix splitTagPrefix
      simp [truthy, bPrefix, iPrefix, startsWith, List.isPrefixOf]

theorem okTag_addB {P : Str → Prop} {x : Option Str} (h : ∀ v, x = some v → v ≠ [] → P v) : OkTag P (addTagPrefix x (some bPrefix)) := by
  intro v hv
  rw [strip_addB] at hv
  exact h v hv

theorem okTag_addI {P : Str → Prop} {x : Option Str} (h : ∀ v, x = some v → v ≠ [] → P v) : OkTag P (addTagPrefix x (some iPrefix)) := by
  intro v hv
  rw [strip_addI] at hv
  exact h v hv

theorem okTag_pyOr {P : Str → Prop} {a b : Option Str} (ha : OkTag P a) (hb : OkTag P b) : OkTag P (pyOr a b) := by
  unfold pyOr
  split
  · exact ha
  · exact hb

theorem okTag_inside {P : Str → Prop} {t : Option Str} (h : OkTag P t) : OkTag P (toInsideTag t) := by
  unfold toInsideTag
  simp only
  split
  · exact okTag_addI h
  · exact h

theorem okTag_beginInside {P : Str → Prop} {t : Option Str} (h : OkTag P t) (n : Nat) : ∀ x ∈ toBeginInsideTags t n, OkTag P x := by
  intro x hx
  cases n with
  | zero => cases hx
  | succ n =>
    unfold toBeginInsideTags at hx
    simp only at hx
    split at hx
    · rw [(List.mem_replicate.1 hx).2]; exact h
    · rcases List.mem_cons.1 hx with rfl | hx
      · exact okTag_addB h
      · rw [(List.mem_replicate.1 hx).2]; exact okTag_addI h

theorem okTag_merged {P : Str → Prop} (g : List (Option Str)) (h : ∀ t ∈ g, OkTag P t) : ∀ t ∈ mergedTags g, OkTag P t := by
  intro t ht
  cases g with
  | nil => cases ht
  | cons a l =>
    unfold mergedTags at ht
    simp only at ht
    split at ht
    · exact h t ht
    · rcases List.mem_cons.1 ht with rfl | ht
      · exact h _ List.mem_cons_self
      · rw [(List.mem_replicate.1 ht).2]; exact okTag_addI (h a List.mem_cons_self)

theorem okTag_extended {P : Str → Prop} (cfg : ExtendCfg) (tags : List (Option Str)) (h : ∀ t ∈ tags, OkTag P t) :
    ∀ t ∈ extendedLineTags cfg tags, OkTag P t :=
  extended_forall cfg _ tags h (okTag_none P) (fun _ => okTag_inside) (fun _ => okTag_beginInside) okTag_merged

/-! ### Changing attributes -/

theorem labelsIn_of_attrs {P Q : Str → Prop} {d d' : Doc} (h : LabelsIn P Q d)
    (ha : ∀ j m, d'.getAttr j m = d.getAttr j m ∨ d'.getAttr j m = none ∨
      (m = scopedAttribName tagAttribName none none ∧ OkTag P (d'.getAttr j m)) ∨
      (m = scopedAttribName tagAttribName none (some subLevel) ∧ OkTag Q (d'.getAttr j m))) : LabelsIn P Q d' := by
  have key : ∀ (R : Str → Prop) j m, OkTag R (d.getAttr j m) → (m = scopedAttribName tagAttribName none none → R = P) →
      (m = scopedAttribName tagAttribName none (some subLevel) → R = Q) → OkTag R (d'.getAttr j m) := by
    intro R j m h0 hP hQ
    rcases ha j m with e | e | ⟨e, e'⟩ | ⟨e, e'⟩
    · rw [e]; exact h0
    · rw [e]; exact okTag_none _
    · rw [hP e]; exact e'
    · rw [hQ e]; exact e'
  refine ⟨fun i => ⟨?_, ?_⟩, fun i => ⟨?_, ?_⟩⟩
  · exact key P i _ (h.main i).1 (fun _ => rfl) (fun e => absurd e (by decide))
  · exact key P i _ (h.main i).2 (fun _ => rfl) (fun e => absurd e (by decide))
  · exact key Q i _ (h.sub i).1 (fun e => absurd e (by decide)) (fun _ => rfl)
  · exact key Q i _ (h.sub i).2 (fun e => absurd e (by decide)) (fun _ => rfl)

variable {P Q : Str → Prop}

theorem labelsIn_setNone {d : Doc} (h : LabelsIn P Q d) (i : Nat) (n : Str) : LabelsIn P Q (d.setAttr i n none) := by
  refine labelsIn_of_attrs h (fun j m => ?_)
  rw [getAttr_setAttr]
  split
  · exact .inr (.inl rfl)
  · exact .inl rfl

theorem labelsIn_setTagOnly {d : Doc} (h : LabelsIn P Q d) (i : Nat) {t : Option Str} (ht : OkTag P t) :
    LabelsIn P Q (d.setTagOnly i t) := by
  refine labelsIn_of_attrs h (fun j m => ?_)
  show (d.setAttr i _ t).getAttr j m = _ ∨ (d.setAttr i _ t).getAttr j m = _ ∨ (_ ∧ OkTag P ((d.setAttr i _ t).getAttr j m)) ∨
    (_ ∧ OkTag Q ((d.setAttr i _ t).getAttr j m))
  rw [getAttr_setAttr]
  split
  · next e => exact .inr (.inr (.inl ⟨e.2, ht⟩))
  · exact .inl rfl

theorem labelsIn_setSubOnly {d : Doc} (h : LabelsIn P Q d) (i : Nat) {t : Option Str} (ht : OkTag Q t) :
    LabelsIn P Q (d.setTagOnly i t (some subLevel)) := by
  refine labelsIn_of_attrs h (fun j m => ?_)
  show (d.setAttr i _ t).getAttr j m = _ ∨ (d.setAttr i _ t).getAttr j m = _ ∨ (_ ∧ OkTag P ((d.setAttr i _ t).getAttr j m)) ∨
    (_ ∧ OkTag Q ((d.setAttr i _ t).getAttr j m))
  rw [getAttr_setAttr]
  split
  · next e => exact .inr (.inr (.inr ⟨e.2, ht⟩))
  · exact .inl rfl

theorem labelsIn_foldl {β : Type} (f : Doc → β → Doc) (l : List β)
    (hf : ∀ d, ∀ x ∈ l, LabelsIn P Q d → LabelsIn P Q (f d x)) : ∀ d, LabelsIn P Q d → LabelsIn P Q (l.foldl f d) := by
  induction l with
  | nil => exact fun d h => h
  | cons x l ih =>
    exact fun d h => ih (fun d y hy => hf d y (List.mem_cons_of_mem _ hy)) _ (hf d x List.mem_cons_self h)

theorem labelsIn_clearSame {d : Doc} (h : LabelsIn P Q d) (i : Nat) (level : Option Nat) : LabelsIn P Q (d.clearSamePreserved i level) := by
  unfold Doc.clearSamePreserved
  simp only
  split
  · refine labelsIn_foldl _ _ (fun d j _ hd => ?_) _ h
    split
    · exact labelsIn_setNone hd _ _
    · exact hd
  · exact h

theorem labelsIn_setTag {d : Doc} (h : LabelsIn P Q d) (i : Nat) {t : Option Str} (ht : OkTag P t) : LabelsIn P Q (d.setTag i t) := by
  unfold Doc.setTag
  simp only
  have h1 := labelsIn_setTagOnly h i ht
  split
  · exact h1
  · split
    · exact labelsIn_clearSame (labelsIn_clearSame h1 _ _) _ _
    · exact h1

theorem labelsIn_setSubTag {d : Doc} (h : LabelsIn P Q d) (i : Nat) {t : Option Str} (ht : OkTag Q t) : LabelsIn P Q (d.setSubTag i t) := by
  unfold Doc.setSubTag Doc.setTag
  simp only
  have h1 := labelsIn_setSubOnly h i ht
  split
  · exact h1
  · split
    · split
      · exact labelsIn_clearSame (labelsIn_clearSame h1 _ _) _ _
      · exact labelsIn_clearSame h1 _ _
    · exact h1

theorem LabelsIn.orPreserved {d : Doc} (h : LabelsIn P Q d) (i : Nat) : OkTag P (d.getTagOrPreserved i) :=
  okTag_pyOr (h.main i).1 (h.main i).2

theorem LabelsIn.subOrPreserved {d : Doc} (h : LabelsIn P Q d) (i : Nat) : OkTag Q (d.getTagOrPreserved i (some subLevel)) :=
  okTag_pyOr (h.sub i).1 (h.sub i).2

/-! ### Before the annotators -/

theorem labelsIn_mapTokenTags (fn : Option Str → Option Str) (hfn : ∀ t, fn t = t ∨ fn t = none) (level : Option Nat)
    (hl : level = none ∨ level = some subLevel) {d : Doc} (h : LabelsIn P Q d) : LabelsIn P Q (mapTokenTags fn level d) := by
  refine labelsIn_foldl _ _ (fun d i _ hd => ?_) _ h
  unfold mapTokenTagsStep
  simp only
  split
  · refine labelsIn_setNone ?_ _ _
    rcases hl with rfl | rfl
    · refine labelsIn_setTagOnly hd _ ?_
      rcases hfn (d.getTagOrPreserved i) with e | e
      · rw [e]; exact hd.orPreserved i
      · rw [e]; exact okTag_none _
    · refine labelsIn_setSubOnly hd _ ?_
      rcases hfn (d.getTagOrPreserved i (some subLevel)) with e | e
      · rw [e]; exact hd.subOrPreserved i
      · rw [e]; exact okTag_none _
  · exact hd

theorem labelsIn_before (cfg : AnnotateCfg) {d : Doc} (h : LabelsIn P Q d) : LabelsIn P Q (beforeAnnotator cfg d) := by
  unfold beforeAnnotator
  have h1 : LabelsIn P Q (if cfg.preserveFields.isEmpty then d else applyPreservedFields cfg.preserveFields d) := by
    split
    · exact h
    · refine labelsIn_foldl _ _ (fun d i _ hd => ?_) _ h
      unfold applyPreservedStep
      simp only
      split
      · exact labelsIn_setTag hd _ (hd.orPreserved i)
      · exact hd
  generalize (if cfg.preserveFields.isEmpty then d else applyPreservedFields cfg.preserveFields d) = d1 at h1
  unfold prepareDoc
  simp only
  have h2 : LabelsIn P Q (mapTokenTags (if cfg.preserveTags || !cfg.preserveFields.isEmpty then
      preserveTagFn cfg.preserveFields (cfg.fields.filter (fun f => !cfg.preserveFields.contains f)) else fun _ => none) none d1) := by
    refine labelsIn_mapTokenTags _ (fun t => ?_) _ (.inl rfl) h1
    split
    · exact preserveTagFn_cases _ _ _
    · exact .inr rfl
  split
  · exact labelsIn_mapTokenTags _ (fun t => .inr rfl) _ (.inr rfl) h2
  · split
    · exact labelsIn_mapTokenTags _ (preserveTagFn_cases _ _) _ (.inr rfl) h2
    · exact h2

/-! ### Post processing -/

/-- The state of a loop contains a document. -/
theorem labelsIn_loop {σ β : Type} (inv : σ → Prop) (f : σ → β → σ) (l : List β) (hf : ∀ s, ∀ x ∈ l, inv s → inv (f s x)) :
    ∀ s, inv s → inv (l.foldl f s) := by
  induction l with
  | nil => exact fun s h => h
  | cons x l ih => exact fun s h => ih (fun s y hy => hf s y (List.mem_cons_of_mem _ hy)) _ (hf s x List.mem_cons_self h)

theorem labelsIn_expandPrevious (enabled : List Str) {d : Doc} (h : LabelsIn P Q d) : LabelsIn P Q (expandPrevious enabled d) := by
  refine labelsIn_loop (fun st : PrevState => LabelsIn P Q st.doc) _ _ (fun st i _ hd => ?_) ⟨d, []⟩ h
  unfold expandPreviousStep
  simp only
  split
  · exact hd
  · split
    · exact hd
    · split
      · exact hd
      · have hv : ∀ v, (st.doc.getTagOrPreservedValue i) = some v → v ≠ [] → P v := fun v e hne => hd.orPreserved i v e hne
        refine labelsIn_setTagOnly ?_ _ (okTag_addI hv)
        have hv' : ∀ v, some ((st.doc.getTagOrPreservedValue i).getD []) = some v → v ≠ [] → P v := by
          intro v e hne
          cases hx : st.doc.getTagOrPreservedValue i with
          | none => rw [hx] at e; cases e; exact absurd rfl hne
          | some w => rw [hx] at e; cases e; exact hv w hx hne
        cases st.pending with
        | nil => exact hd
        | cons j js =>
          exact labelsIn_foldl _ _ (fun d k _ hd => labelsIn_setTagOnly hd _ (okTag_addI hv')) _ (labelsIn_setTagOnly hd _ (okTag_addB hv'))

theorem labelsIn_expandFollowing (enabled : List Str) {d : Doc} (h : LabelsIn P Q d) : LabelsIn P Q (expandFollowing enabled d) := by
  refine (labelsIn_loop (fun st : Option Str × Doc => LabelsIn P Q st.2 ∧ ∀ v, st.1 = some v → v ≠ [] → P v) _ _ (fun st i _ hd => ?_)
    (none, d) ⟨h, by intro v e; cases e⟩).1
  unfold expandFollowingStep
  simp only
  split
  · refine ⟨hd.1, ?_⟩
    split
    · exact fun v e hne => hd.1.orPreserved i v e hne
    · intro v e; cases e
  · split
    · exact hd
    · exact ⟨labelsIn_setTagOnly hd.1 _ (okTag_addI hd.2), hd.2⟩

theorem labelsIn_mergeGroup (group : Str → Option Str) {d : Doc} (h : LabelsIn P Q d)
    (hg : ∀ v g, group v = some g → P g) : LabelsIn P Q (mergeGroupTags group none d) := by
  refine (labelsIn_loop (fun st : Option Str × Doc => LabelsIn P Q st.2 ∧ ∀ v, st.1 = some v → v ≠ [] → P v) _ _ (fun st i _ hd => ?_)
    (none, d) ⟨h, by intro v e; cases e⟩).1
  unfold mergeGroupStep
  split
  · exact hd
  · simp only
    split
    · exact ⟨hd.1, fun v e _ => hg _ v e⟩
    · split
      · exact hd
      · exact ⟨labelsIn_setTagOnly hd.1 _ (okTag_addI hd.2), hd.2⟩

theorem labelsIn_mergeGroupSub (group : Str → Option Str) {d : Doc} (h : LabelsIn P Q d)
    (hg : ∀ v g, group v = some g → Q g) : LabelsIn P Q (mergeGroupTags group (some subLevel) d) := by
  refine (labelsIn_loop (fun st : Option Str × Doc => LabelsIn P Q st.2 ∧ ∀ v, st.1 = some v → v ≠ [] → Q v) _ _ (fun st i _ hd => ?_)
    (none, d) ⟨h, by intro v e; cases e⟩).1
  unfold mergeGroupStep
  split
  · exact hd
  · simp only
    split
    · exact ⟨hd.1, fun v e _ => hg _ v e⟩
    · split
      · exact hd
      · exact ⟨labelsIn_setSubOnly hd.1 _ (okTag_addI hd.2), hd.2⟩

theorem splitPrefix_cases (t : Option Str) : (splitTagPrefix t).1 = none ∨ (splitTagPrefix t).1 = some bPrefix ∨ (splitTagPrefix t).1 = some iPrefix := by
  unfold splitTagPrefix
  split
  · exact .inl rfl
  · split
    · split
      · exact .inr (.inl rfl)
      · split
        · exact .inr (.inr rfl)
        · exact .inl rfl
    · exact .inl rfl

theorem labelsIn_replaceTags (repl : Dict (Option Str)) {d : Doc} (h : LabelsIn P Q d)
    (hr : ∀ v new, repl.get? v = some new → OkTag P new ∧ ∀ w, new = some w → w ≠ [] → P w) : LabelsIn P Q (replaceTags repl d) := by
  refine labelsIn_foldl _ _ (fun d i _ hd => ?_) _ h
  unfold replaceTagsStep
  have hc := splitPrefix_cases (d.getTagOrPreserved i)
  generalize splitTagPrefix (d.getTagOrPreserved i) = p at hc
  obtain ⟨pre, value⟩ := p
  simp only at hc ⊢
  split
  · exact hd
  · split
    · exact hd
    · next new hn =>
      obtain ⟨h1, h2⟩ := hr _ _ hn
      refine labelsIn_setTag hd _ ?_
      rcases hc with rfl | rfl | rfl
      · exact h1
      · exact okTag_addB h2
      · exact okTag_addI h2

end Verif
