/-
The lines of loaded documents, and what segmentation does to preserved tags.
-/
import Verif.Lemmas.SegPhases
import Verif.Lemmas.SegPages

namespace Verif

theorem mem_segLines {d : Doc} {l : SegLine} (h : l ∈ segLines d) : d.lines[l.index]? = some l.line ∧
    l.text = joinStr c!" " (l.line.nonSpace.map (fun i => (d.tok i).text)) := by
  unfold segLines at h
  obtain ⟨⟨x, i⟩, hx, rfl⟩ := List.mem_map.1 h
  exact ⟨List.mem_zipIdx_iff_getElem?.1 hx, rfl⟩

theorem segLines_index (d : Doc) : (segLines d).Pairwise (fun l l' => l.index < l'.index) := by
  have h : (segLines d).map SegLine.index = List.range' 0 d.lines.length := by
    unfold segLines
    rw [List.map_map, ← List.zipIdx_map_snd 0 d.lines]
    rfl
  have h2 : ((segLines d).map SegLine.index).Pairwise (· < ·) := by
    rw [h]; exact List.pairwise_lt_range'
  exact List.pairwise_map.1 h2

theorem pairwise_getElem? {α : Type} {R : α → α → Prop} {l : List α} (h : l.Pairwise R) {i j : Nat} {x y : α}
    (hi : l[i]? = some x) (hj : l[j]? = some y) (hij : i < j) : R x y := by
  rw [List.pairwise_iff_getElem] at h
  obtain ⟨h1, e1⟩ := List.getElem?_eq_some_iff.1 hi
  obtain ⟨h2, e2⟩ := List.getElem?_eq_some_iff.1 hj
  rw [← e1, ← e2]
  exact h i j h1 h2 hij

theorem ownLines_ofLines {lines : List (List Tok)} {d : Doc} (hs : SameBut (Doc.ofLines lines) d) : OwnLines d (segLines d) := by
  have hlines : d.lines = (Doc.number 0 lines).map (fun l => (⟨l, l.filter (fun i => !((Doc.ofLines lines).tok i).isSpace)⟩ : Line)) := by
    rw [hs.lines]; rfl
  have hnd : (Doc.number 0 lines).flatten.Nodup := by
    rw [number_flatten]; exact List.nodup_range'
  have hpw := (List.pairwise_flatten.1 hnd).2
  have hdis : ∀ (i j : Nat) (x y : List Nat), (Doc.number 0 lines)[i]? = some x → (Doc.number 0 lines)[j]? = some y → i ≠ j → ∀ k ∈ x, k ∉ y := by
    intro i j x y hi hj hne k hk hk'
    rcases Nat.lt_or_gt_of_ne hne with h | h
    · exact pairwise_getElem? hpw hi hj h k hk k hk' rfl
    · exact pairwise_getElem? hpw hj hi h k hk' k hk rfl
  have hmem : ∀ l ∈ segLines d, (Doc.number 0 lines)[l.index]? = some l.line.tokens ∧
      l.line.nonSpace = l.line.tokens.filter (fun i => !((Doc.ofLines lines).tok i).isSpace) := by
    intro l hl
    have h := (mem_segLines hl).1
    rw [hlines, List.getElem?_map] at h
    cases hx : (Doc.number 0 lines)[l.index]? with
    | none => rw [hx] at h; cases h
    | some x =>
      rw [hx] at h
      have := Option.some.inj h
      rw [← this]
      exact ⟨rfl, rfl⟩
  refine ⟨segLines_index d, ?_, ?_, ?_⟩
  · intro l hl l' hl' hne i hi
    exact hdis _ _ _ _ (hmem l hl).1 (hmem l' hl').1 hne i hi
  · intro l hl i hi
    rw [hs.lineOf]
    have e : (Doc.ofLines lines).lineOf i = ((Doc.number 0 lines).find? (fun l => l.contains i)).getD [] := rfl
    rw [e]
    cases hf : (Doc.number 0 lines).find? (fun l => l.contains i) with
    | none =>
      rw [List.find?_eq_none] at hf
      exact absurd (by simpa using hi) (hf _ (List.mem_of_getElem? (hmem l hl).1))
    | some x =>
      have hx := List.mem_of_find?_eq_some hf
      have hxi : i ∈ x := by simpa using List.find?_some hf
      obtain ⟨j, hj⟩ := List.mem_iff_getElem?.1 hx
      by_cases hjl : j = l.index
      · rw [hjl, (hmem l hl).1] at hj
        exact (Option.some.inj hj).symm
      · exact absurd hi (hdis _ _ _ _ hj (hmem l hl).1 hjl i hxi)
  · intro l hl i hi
    rw [(hmem l hl).2] at hi
    exact (List.mem_filter.1 hi).1

theorem ownLines_loadDoc {cfg : DocCfg} {root : Elem} {d0 d : Doc} (hl : loadDoc cfg root = .ok d0) (hs : SameBut d0 d) :
    OwnLines d (segLines d) := by
  obtain ⟨lines, h⟩ := sameBut_loadDoc hl
  exact ownLines_ofLines (h.trans hs)

/-! ### Preserved tags -/

/-- Preserved tags stay or are removed. -/
def PreservedLess (d d' : Doc) : Prop := ∀ j, d'.getPreservedTag j = d.getPreservedTag j ∨ d'.getPreservedTag j = none

theorem PreservedLess.refl (d : Doc) : PreservedLess d d := fun _ => .inl rfl

theorem PreservedLess.trans {a b c : Doc} (h : PreservedLess a b) (h' : PreservedLess b c) : PreservedLess a c := by
  intro j
  rcases h' j with e | e
  · rw [e]; exact h j
  · exact .inr e

theorem preservedLess_setTag (d : Doc) (i : Nat) (t : Option Str) : PreservedLess d (d.setTag i t) := by
  intro j
  have h := (Props.C12_effect d i t none none).2.2.2 j (scopedAttribName preservedTagAttribName none none)
  have e : (d.setTag i t).getPreservedTag j = (d.setTag i t).getAttr j (scopedAttribName preservedTagAttribName none none) := rfl
  rw [e, h]
  split
  · next hx => exact absurd hx.2 (by decide)
  · split
    · exact .inr rfl
    · exact .inl rfl

theorem preservedLess_foldl {α : Type} (f : Doc → α → Doc) (hf : ∀ d a, PreservedLess d (f d a)) (l : List α) (d : Doc) :
    PreservedLess d (l.foldl f d) := by
  induction l generalizing d with
  | nil => exact .refl d
  | cons a l ih => exact (hf d a).trans (ih _)

theorem preservedLess_set (st : SegState) (l : SegLine) (t : Option Str) : PreservedLess st.doc (st.set l t).doc :=
  preservedLess_foldl _ (fun d i => preservedLess_setTag d i t) _ _

theorem preservedLess_clear (st : SegState) (l : SegLine) : PreservedLess st.doc (st.clear l).doc := by
  refine preservedLess_foldl _ (fun d i => ?_) _ _
  split
  · exact preservedLess_setTag d i none
  · exact .refl d

theorem preservedLess_states (f : SegState → SegLine → SegState) (hf : ∀ st l, PreservedLess st.doc (f st l).doc) (ls : List SegLine)
    (st : SegState) : PreservedLess st.doc (ls.foldl f st).doc := by
  induction ls generalizing st with
  | nil => exact .refl _
  | cons a l ih => exact (hf st a).trans (ih _)

theorem preservedLess_init (cfg : SegConfig) (ls : List SegLine) (st : SegState) : PreservedLess st.doc (ls.foldl (segInitStep cfg) st).doc := by
  refine preservedLess_states _ (fun st l => ?_) ls st
  unfold segInitStep
  split
  · exact .refl _
  · simp only []
    show PreservedLess st.doc (SegState.doc (ite _ _ _))
    repeat' split
    any_goals exact .refl _
    any_goals exact preservedLess_set _ _ _
    exact preservedLess_clear _ _

theorem preservedLess_front (maxStart : Int) (ls : List SegLine) (st : SegState) : PreservedLess st.doc (clearFront maxStart ls st).doc := by
  unfold clearFront
  split
  · exact .refl _
  · have key : ∀ (ls : List SegLine) (f : FrontState), PreservedLess f.st.doc (ls.foldl (clearFrontStep maxStart) f).st.doc := by
      intro ls
      induction ls with
      | nil => intro f; exact .refl _
      | cons a l ih =>
        intro f
        refine PreservedLess.trans ?_ (ih _)
        unfold clearFrontStep
        simp only []
        repeat' split
        any_goals exact .refl _
        all_goals exact preservedLess_clear f.st a
    exact key ls ⟨st, none, 0⟩

end Verif
