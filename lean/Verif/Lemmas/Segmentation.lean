/-
Lemmas about the segmentation annotator: what tagging lines does to the document.
-/
import Verif.Model.Segmentation
import Verif.Lemmas.SimpleMatching
import Verif.Lemmas.PostAnnotators
import Verif.Lemmas.PyList

namespace Verif

/-- The lines have different indices and different tokens, and each token refers to its own line. -/
structure OwnLines (d : Doc) (ls : List SegLine) : Prop where
  index : ls.Pairwise (fun l l' => l.index < l'.index)
  disjoint : ∀ l ∈ ls, ∀ l' ∈ ls, l.index ≠ l'.index → ∀ i ∈ l.line.tokens, i ∉ l'.line.tokens
  lineOf : ∀ l ∈ ls, ∀ i ∈ l.line.tokens, d.lineOf i = l.line.tokens
  nonSpace : ∀ l ∈ ls, ∀ i ∈ l.line.nonSpace, i ∈ l.line.tokens

theorem OwnLines.congr {d d' : Doc} {ls : List SegLine} (h : OwnLines d ls) (hs : SameBut d d') : OwnLines d' ls :=
  ⟨h.index, h.disjoint, fun l hl i hi => by rw [hs.lineOf]; exact h.lineOf l hl i hi, h.nonSpace⟩

theorem pairwise_lt_inj {ls : List SegLine} (h : ls.Pairwise (fun l l' => l.index < l'.index)) {l l' : SegLine}
    (hl : l ∈ ls) (hl' : l' ∈ ls) (e : l.index = l'.index) : l = l' := by
  induction ls with
  | nil => cases hl
  | cons a ls ih =>
    rw [List.pairwise_cons] at h
    rcases List.mem_cons.1 hl with e1 | h1 <;> rcases List.mem_cons.1 hl' with e2 | h2
    · rw [e1, e2]
    · have := h.1 _ h2; rw [e1] at e; omega
    · have := h.1 _ h1; rw [e2] at e; omega
    · exact ih h.2 h1 h2

theorem OwnLines.inj {d : Doc} {ls : List SegLine} (h : OwnLines d ls) {l l' : SegLine}
    (hl : l ∈ ls) (hl' : l' ∈ ls) (e : l.index = l'.index) : l = l' := pairwise_lt_inj h.index hl hl' e

/-! ### Setting and clearing the tags of a line -/

theorem sameBut_setLineTokensTag (d : Doc) (l : Line) (t : Option Str) : SameBut d (setLineTokensTag d l t) :=
  sameBut_foldl _ (fun d i => sameBut_setTag d i t none none) _ _

theorem getTag_setTokens (is : List Nat) (t : Option Str) (d : Doc) (j : Nat) :
    (is.foldl (fun d i => d.setTag i t) d).getTag j = if j ∈ is then t else d.getTag j := by
  induction is generalizing d with
  | nil => simp
  | cons i is ih =>
    rw [List.foldl_cons, ih, getTag_setTag]
    by_cases h1 : j ∈ is
    · simp [h1]
    · by_cases h2 : j = i <;> simp [h1, h2]

theorem getSubTag_setTokens (is : List Nat) (t : Option Str) (d : Doc) (j : Nat) :
    (is.foldl (fun d i => d.setTag i t) d).getSubTag j = d.getSubTag j := by
  induction is generalizing d with
  | nil => rfl
  | cons i is ih => rw [List.foldl_cons, ih, getSubTag_setTag]

theorem getAttr_setTokens (own is : List Nat) (t : Option Str) (d : Doc) (his : ∀ i ∈ is, i ∈ own)
    (hown : ∀ i ∈ own, d.lineOf i = own) (j : Nat) (hj : j ∉ own) :
    (is.foldl (fun d i => d.setTag i t) d).getAttr j = d.getAttr j := by
  induction is generalizing d with
  | nil => rfl
  | cons i is ih =>
    have hi := his i List.mem_cons_self
    rw [List.foldl_cons, ih _ (fun k hk => his k (List.mem_cons_of_mem _ hk))
      (by intro k hk; rw [(sameBut_setTag d i t none none).lineOf]; exact hown k hk)]
    funext m
    apply (Props.C12_frame d i t none none j).2
    · rintro rfl; exact hj hi
    · rw [hown i hi]; exact hj

theorem sameBut_clearLineTokens (d : Doc) (l : Line) : SameBut d (clearLineTokens d l) := by
  refine sameBut_foldl _ (fun d i => ?_) _ _
  split
  · exact sameBut_setTag d i none none none
  · exact .refl d

theorem getTag_clearTokens (is : List Nat) (d : Doc) (j : Nat) :
    (is.foldl (fun d i => if truthy (d.getTag i) then d.setTag i none else d) d).getTag j =
      if j ∈ is ∧ truthy (d.getTag j) = true then none else d.getTag j := by
  induction is generalizing d with
  | nil => simp
  | cons i is ih =>
    rw [List.foldl_cons, ih]
    split
    · next h =>
      rw [getTag_setTag]
      by_cases h2 : j = i
      · subst h2; rw [if_pos (rfl : j = j), ite_self, if_pos ⟨List.mem_cons_self, h⟩]
      · simp [h2]
    · next h =>
      by_cases h2 : j = i
      · subst h2; simp [h]
      · simp [h2]

theorem getSubTag_clearTokens (is : List Nat) (d : Doc) (j : Nat) :
    (is.foldl (fun d i => if truthy (d.getTag i) then d.setTag i none else d) d).getSubTag j = d.getSubTag j := by
  induction is generalizing d with
  | nil => rfl
  | cons i is ih =>
    rw [List.foldl_cons, ih]
    split
    · rw [getSubTag_setTag]
    · rfl

theorem getAttr_clearTokens (own is : List Nat) (d : Doc) (his : ∀ i ∈ is, i ∈ own)
    (hown : ∀ i ∈ own, d.lineOf i = own) (j : Nat) (hj : j ∉ own) :
    (is.foldl (fun d i => if truthy (d.getTag i) then d.setTag i none else d) d).getAttr j = d.getAttr j := by
  induction is generalizing d with
  | nil => rfl
  | cons i is ih =>
    have hi := his i List.mem_cons_self
    rw [List.foldl_cons]
    split
    · rw [ih _ (fun k hk => his k (List.mem_cons_of_mem _ hk))
        (by intro k hk; rw [(sameBut_setTag d i none none none).lineOf]; exact hown k hk)]
      funext m
      apply (Props.C12_frame d i none none none j).2
      · rintro rfl; exact hj hi
      · rw [hown i hi]; exact hj
    · exact ih _ (fun k hk => his k (List.mem_cons_of_mem _ hk)) hown

/-! ### Changes of lines -/

/-- All tokens of the line have the tag; without tag, an empty tag counts as none. -/
def Shown (d : Doc) (l : SegLine) (t : Option Str) : Prop :=
  ∀ i ∈ l.line.tokens, d.getTag i = t ∨ (t = none ∧ truthy (d.getTag i) = false)

/-- The line is the same in both states. -/
def SameLine (st st' : SegState) (l : SegLine) : Prop :=
  st'.tag l.index = st.tag l.index ∧ ∀ i ∈ l.line.tokens, st'.doc.getAttr i = st.doc.getAttr i

theorem SameLine.trans {a b c : SegState} {l : SegLine} (h : SameLine a b l) (h' : SameLine b c l) : SameLine a c l :=
  ⟨h'.1.trans h.1, fun i hi => (h'.2 i hi).trans (h.2 i hi)⟩

theorem SameLine.getTag {st st' : SegState} {l : SegLine} (h : SameLine st st' l) {i : Nat} (hi : i ∈ l.line.tokens) :
    st'.doc.getTag i = st.doc.getTag i := by
  unfold Doc.getTag; rw [h.2 i hi]

/-- Text and sub tags stay; each line stays the same, or all its tokens have its tag. -/
structure Relabels (ls : List SegLine) (st st' : SegState) : Prop where
  same : SameBut st.doc st'.doc
  sub : ∀ j, st'.doc.getSubTag j = st.doc.getSubTag j
  line : ∀ l ∈ ls, SameLine st st' l ∨ Shown st'.doc l (st'.tag l.index)

theorem Relabels.refl (ls : List SegLine) (st : SegState) : Relabels ls st st :=
  ⟨.refl _, fun _ => rfl, fun _ _ => .inl ⟨rfl, fun _ _ => rfl⟩⟩

theorem Shown.congr {st st' : SegState} {l : SegLine} (h : SameLine st st' l) (hs : Shown st.doc l (st.tag l.index)) :
    Shown st'.doc l (st'.tag l.index) := by
  intro i hi
  rw [h.getTag hi, h.1]
  exact hs i hi

theorem Relabels.trans {ls : List SegLine} {a b c : SegState} (h : Relabels ls a b) (h' : Relabels ls b c) : Relabels ls a c := by
  refine ⟨h.same.trans h'.same, fun j => (h'.sub j).trans (h.sub j), fun l hl => ?_⟩
  rcases h'.line l hl with e | e
  · rcases h.line l hl with e' | e'
    · exact .inl (e'.trans e)
    · exact .inr (e'.congr e)
  · exact .inr e

/-- The change affects only the given line. -/
structure OnlyLine (ls : List SegLine) (l : SegLine) (st st' : SegState) : Prop where
  same : SameBut st.doc st'.doc
  sub : ∀ j, st'.doc.getSubTag j = st.doc.getSubTag j
  other : ∀ l' ∈ ls, l'.index ≠ l.index → SameLine st st' l'

theorem OnlyLine.refl (ls : List SegLine) (l : SegLine) (st : SegState) : OnlyLine ls l st st :=
  ⟨.refl _, fun _ => rfl, fun _ _ _ => ⟨rfl, fun _ _ => rfl⟩⟩

theorem set_only {ls : List SegLine} {st : SegState} (ho : OwnLines st.doc ls) {l : SegLine} (hl : l ∈ ls) (t : Option Str) :
    OnlyLine ls l st (st.set l t) := by
  refine ⟨sameBut_setLineTokensTag _ _ _, getSubTag_setTokens _ _ _, fun l' hl' hne => ⟨?_, ?_⟩⟩
  · show (if l'.index = l.index then _ else _) = _
    rw [if_neg hne]
  · intro i hi
    exact getAttr_setTokens l.line.tokens _ _ _ (fun _ h => h) (ho.lineOf l hl) _ (ho.disjoint l' hl' l hl hne i hi)

theorem set_tag (st : SegState) (l : SegLine) (t : Option Str) (j : Nat) :
    (st.set l t).tag j = if j = l.index then t else st.tag j := rfl

theorem put_tag (st : SegState) (l : SegLine) (t : Option Str) (j : Nat) :
    (st.put l t).tag j = if j = l.index then t else st.tag j := rfl

theorem clear_tag (st : SegState) (l : SegLine) (j : Nat) :
    (st.clear l).tag j = if j = l.index then none else st.tag j := rfl

theorem set_shown (st : SegState) (l : SegLine) (t : Option Str) : Shown (st.set l t).doc l t := by
  intro i hi
  left
  have := getTag_setTokens l.line.tokens t st.doc i
  rw [if_pos hi] at this
  exact this

theorem clear_only {ls : List SegLine} {st : SegState} (ho : OwnLines st.doc ls) {l : SegLine} (hl : l ∈ ls) :
    OnlyLine ls l st (st.clear l) := by
  refine ⟨sameBut_clearLineTokens _ _, getSubTag_clearTokens _ _, fun l' hl' hne => ⟨?_, ?_⟩⟩
  · show (if l'.index = l.index then _ else _) = _
    rw [if_neg hne]
  · intro i hi
    exact getAttr_clearTokens l.line.tokens _ _ (fun _ h => h) (ho.lineOf l hl) _ (ho.disjoint l' hl' l hl hne i hi)

theorem clear_shown (st : SegState) (l : SegLine) : Shown (st.clear l).doc l none := by
  intro i hi
  right
  refine ⟨rfl, ?_⟩
  have := getTag_clearTokens l.line.tokens st.doc i
  have e : (st.clear l).doc.getTag i = _ := this
  rw [e]
  by_cases h : truthy (st.doc.getTag i) = true
  · rw [if_pos ⟨hi, h⟩]; rfl
  · rw [if_neg (fun x => h x.2)]; simpa using h

theorem OnlyLine.relabels {ls : List SegLine} {st st' : SegState} (ho : OwnLines st.doc ls) {l : SegLine} (hl : l ∈ ls)
    (h : OnlyLine ls l st st') (hs : Shown st'.doc l (st'.tag l.index)) : Relabels ls st st' := by
  refine ⟨h.same, h.sub, fun l' hl' => ?_⟩
  by_cases e : l'.index = l.index
  · rw [ho.inj hl' hl e]; exact .inr hs
  · exact .inl (h.other l' hl' e)

theorem set_relabels {ls : List SegLine} {st : SegState} (ho : OwnLines st.doc ls) {l : SegLine} (hl : l ∈ ls) (t : Option Str) :
    Relabels ls st (st.set l t) :=
  (set_only ho hl t).relabels ho hl (by rw [set_tag, if_pos rfl]; exact set_shown st l t)

theorem clear_relabels {ls : List SegLine} {st : SegState} (ho : OwnLines st.doc ls) {l : SegLine} (hl : l ∈ ls) :
    Relabels ls st (st.clear l) :=
  (clear_only ho hl).relabels ho hl (by rw [clear_tag, if_pos rfl]; exact clear_shown st l)

/-- A loop over the lines, each step of which changes its own line only: for each line there is a state
like the first one on this line, such that the final state on this line is that after its step. -/
theorem foldl_lines {ls : List SegLine} (f : SegState → SegLine → SegState)
    (hf : ∀ st l, OwnLines st.doc ls → l ∈ ls → OnlyLine ls l st (f st l)) (st : SegState) (ho : OwnLines st.doc ls) :
    SameBut st.doc (ls.foldl f st).doc ∧ (∀ j, (ls.foldl f st).doc.getSubTag j = st.doc.getSubTag j) ∧
    ∀ l ∈ ls, ∃ sa, SameBut st.doc sa.doc ∧ SameLine st sa l ∧ SameLine (f sa l) (ls.foldl f st) l := by
  have key : ∀ (ms : List SegLine), (∀ m ∈ ms, m ∈ ls) → ms.Pairwise (fun l l' => l.index < l'.index) → ∀ s, OwnLines s.doc ls →
      SameBut s.doc (ms.foldl f s).doc ∧ (∀ j, (ms.foldl f s).doc.getSubTag j = s.doc.getSubTag j) ∧
      (∀ l ∈ ls, (∀ m ∈ ms, m.index ≠ l.index) → SameLine s (ms.foldl f s) l) ∧
      ∀ l ∈ ms, ∃ sa, SameBut s.doc sa.doc ∧ SameLine s sa l ∧ SameLine (f sa l) (ms.foldl f s) l := by
    intro ms
    induction ms with
    | nil => intro _ _ s _; exact ⟨.refl _, fun _ => rfl, fun _ _ _ => ⟨rfl, fun _ _ => rfl⟩, fun l hl => by cases hl⟩
    | cons m ms ih =>
      intro hm hp s hs
      rw [List.pairwise_cons] at hp
      have hml := hm m List.mem_cons_self
      have hms := fun x hx => hm x (List.mem_cons_of_mem m hx)
      have h1 := hf s m hs hml
      obtain ⟨a, a', b, c⟩ := ih hms hp.2 (f s m) (hs.congr h1.same)
      rw [List.foldl_cons]
      refine ⟨h1.same.trans a, fun j => (a' j).trans (h1.sub j), ?_, ?_⟩
      · intro l hl hne
        exact (h1.other l hl (Ne.symm (hne m List.mem_cons_self))).trans (b l hl (fun x hx => hne x (List.mem_cons_of_mem m hx)))
      · intro l hl
        rcases List.mem_cons.1 hl with rfl | hl
        · exact ⟨s, .refl _, ⟨rfl, fun _ _ => rfl⟩, b l hml (fun x hx => by have := hp.1 x hx; omega)⟩
        · obtain ⟨sa, e1, e2, e3⟩ := c l hl
          refine ⟨sa, h1.same.trans e1, ?_, e3⟩
          exact (h1.other l (hms l hl) (by have := hp.1 l hl; omega)).trans e2
  obtain ⟨a, a', _, c⟩ := key ls (fun _ h => h) ho.index st ho
  exact ⟨a, a', c⟩

end Verif
