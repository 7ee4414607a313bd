/-
Property C140: the text of ALTO pages.
-/
import Verif.Spec.AltoText

namespace Verif
open Spec

/-! ### The text is the one with the layout of the document -/

theorem applyTemplates_cons (f : Nat → Elem → Str) (n : Nat) (e : Elem) (es : List Elem) :
    ((e :: es).zipIdx n).flatMap (fun p => f p.2 p.1) = f n e ++ (es.zipIdx (n + 1)).flatMap (fun p => f p.2 p.1) := by
  rw [List.zipIdx_cons, List.flatMap_cons]

theorem applyTemplates_later {g : Elem → Str} {sep : Str} {f : Nat → Elem → Str} (h : ∀ n e, n > 1 → f n e = sep ++ g e) (es : List Elem) :
    ∀ n, n > 1 → (es.zipIdx n).flatMap (fun p => f p.2 p.1) = es.flatMap (fun e => sep ++ g e) := by
  induction es with
  | nil => intro n _; rfl
  | cons e es ih =>
    intro n hn
    rw [applyTemplates_cons, h n e hn, ih (n + 1) (by omega), List.flatMap_cons]

theorem joinStr_map_cons (sep : Str) (g : Elem → Str) (e : Elem) (es : List Elem) :
    joinStr sep ((e :: es).map g) = g e ++ es.flatMap (fun e => sep ++ g e) := by
  induction es generalizing e with
  | nil => simp [joinStr]
  | cons x es ih =>
    have e1 : joinStr sep ((e :: x :: es).map g) = g e ++ sep ++ joinStr sep ((x :: es).map g) := rfl
    rw [e1, ih x, List.flatMap_cons]
    simp [List.append_assoc]

/-- Templates adding a separator before all elements but the first. -/
theorem applyTemplates_join {g : Elem → Str} {sep : Str} {f : Nat → Elem → Str} (h1 : ∀ e, f 1 e = g e) (h : ∀ n e, n > 1 → f n e = sep ++ g e)
    (es : List Elem) : applyTemplates f es = joinStr sep (es.map g) := by
  unfold applyTemplates
  cases es with
  | nil => rfl
  | cons e es => rw [applyTemplates_cons, h1, applyTemplates_later h es 2 (by omega), joinStr_map_cons]

theorem applyTemplates_same {g : Elem → Str} {f : Nat → Elem → Str} (h : ∀ n e, f n e = g e) (es : List Elem) : applyTemplates f es = es.flatMap g := by
  have key : ∀ n, (es.zipIdx n).flatMap (fun p => f p.2 p.1) = es.flatMap g := by
    induction es with
    | nil => intro n; rfl
    | cons e es ih => intro n; rw [applyTemplates_cons, h, ih, List.flatMap_cons]
  exact key 1

/-- **C140**, exactly: the text written has the layout of the document. -/
theorem C140_layout (root : Elem) : altoText root = layoutText (altoLayout root) := by
  have sep : ∀ {sep : Str} {g : Elem → Str}, (∀ e, (if (1 : Nat) > 1 then sep else []) ++ g e = g e) ∧
      ∀ (n : Nat) (e : Elem), n > 1 → (if n > 1 then sep else []) ++ g e = sep ++ g e := by
    intro sep g
    exact ⟨fun e => rfl, fun n e hn => by rw [if_pos hn]⟩
  have hline : ∀ n e, altoLine n e = lineText ((altoAll c!"String" e).map (fun e => e.attrib.getD c!"CONTENT" [])) := by
    intro n e
    unfold altoLine lineText
    rw [applyTemplates_join (f := altoString) (g := fun e => e.attrib.getD c!"CONTENT" []) (sep := c!" ") sep.1 sep.2]
  unfold altoText layoutText altoLayout
  congr 1
  rw [applyTemplates_join (f := altoPage) (g := fun e => applyTemplates altoBlock ((altoAll c!"TextBlock" e).filter hasString)) (sep := c!"\n\n") sep.1 sep.2,
    List.map_map]
  congr 1
  refine List.map_congr_left (fun page _ => ?_)
  rw [applyTemplates_join (f := altoBlock) (g := fun e => applyTemplates altoLine ((altoAll c!"TextLine" e).filter hasString)) (sep := c!"\n") sep.1 sep.2]
  simp only [Function.comp, List.map_map]
  congr 1
  refine List.map_congr_left (fun block _ => ?_)
  simp only [Function.comp]
  rw [applyTemplates_same hline, List.flatMap_map]

/-! ### All words, once and in order -/

theorem elemBelow_eq (e : Elem) : elemBelow e = elemsBelow e.children := by cases e; rfl

theorem elemsBelow_cons (e : Elem) (es : List Elem) : elemsBelow (e :: es) = e :: (elemsBelow e.children ++ elemsBelow es) := by
  rw [elemsBelow, elemBelow_eq]

theorem wellNested_eq (n : Nat) (e : Elem) : WellNested n e =
    (if e.tag ∈ altoKinds then altoKinds[n]? = some e.tag ∧ WellNesteds (n + 1) e.children else WellNesteds n e.children) := by
  cases e; rfl

theorem elem_induction {P : List Elem → Prop} (h0 : P []) (h1 : ∀ e es, P e.children → P es → P (e :: es)) (es : List Elem) : P es := by
  have key : ∀ e : Elem, P e.children := fun e =>
    Elem.rec (motive_1 := fun e => P e.children) (motive_2 := fun es => P es) (fun _ _ _ _ _ ih => ih) h0 (fun e es ih1 ih2 => h1 e es ih1 ih2) e
  induction es with
  | nil => exact h0
  | cons e es ih => exact h1 e es (key e) ih

theorem altoKinds_inj {i j : Nat} {t : Str} (hi : altoKinds[i]? = some t) (hj : altoKinds[j]? = some t) : i = j := by
  refine (List.getElem?_inj (List.getElem?_eq_some_iff.1 hi).1 (by decide +kernel)).1 (hi.trans hj.symm)

/-- Deeper inside there is none of a kind. -/
theorem none_deeper (es : List Elem) : ∀ (n i : Nat) (t : Str), altoKinds[i]? = some t → i < n → WellNesteds n es →
    (elemsBelow es).filter (fun x => x.tag = t) = [] := by
  induction es using elem_induction with
  | h0 => intro n i t _ _ _; rfl
  | h1 e es ih1 ih2 =>
    intro n i t hi hlt h
    unfold WellNesteds at h
    obtain ⟨h1, h2⟩ := h
    rw [wellNested_eq] at h1
    rw [elemsBelow_cons, List.filter_cons, List.filter_append, ih2 n i t hi hlt h2]
    split at h1
    · rw [ih1 (n + 1) i t hi (by omega) h1.2, if_neg]
      · rfl
      · intro ht
        have ht : e.tag = t := of_decide_eq_true ht
        rw [ht] at h1
        have := altoKinds_inj hi h1.1
        omega
    · next hk =>
      rw [ih1 n i t hi hlt h1, if_neg]
      · rfl
      · intro ht
        have ht : e.tag = t := of_decide_eq_true ht
        rw [ht] at hk
        exact hk (List.mem_of_getElem? hi)

def wordElems (es : List Elem) : List Elem := (elemsBelow es).filter (fun x => x.tag = altoName c!"String")

theorem wordElems_cons (e : Elem) (es : List Elem) : wordElems (e :: es) =
    (if e.tag = altoName c!"String" then [e] else []) ++ wordElems e.children ++ wordElems es := by
  unfold wordElems
  rw [elemsBelow_cons, List.filter_cons, List.filter_append]
  by_cases h : e.tag = altoName c!"String" <;> simp [h]

/-- The words are in the elements of each kind. -/
theorem words_in_kind (es : List Elem) : ∀ (i : Nat) (t : Str), altoKinds[i]? = some t → i < 3 → WellNesteds i es →
    ((elemsBelow es).filter (fun x => x.tag = t)).flatMap (fun e => wordElems e.children) = wordElems es := by
  induction es using elem_induction with
  | h0 => intro i t _ _ _; rfl
  | h1 e es ih1 ih2 =>
    intro i t hi hlt h
    unfold WellNesteds at h
    obtain ⟨h1, h2⟩ := h
    rw [wellNested_eq] at h1
    rw [elemsBelow_cons, List.filter_cons, List.filter_append, wordElems_cons]
    have ih2 := ih2 i t hi hlt h2
    split at h1
    · have ht : e.tag = t := by
        have := h1.1.symm.trans hi
        exact Option.some.inj this
      have hw : ¬ e.tag = altoName c!"String" := by
        intro hs
        rw [hs] at h1
        have := altoKinds_inj h1.1 (show altoKinds[3]? = some (altoName c!"String") from rfl)
        omega
      rw [if_pos (decide_eq_true ht), if_neg hw, none_deeper e.children (i + 1) i t hi (by omega) h1.2, List.flatMap_cons, List.nil_append, ih2]
      rfl
    · next hk =>
      have ht : ¬ e.tag = t := fun ht => hk (by rw [ht]; exact List.mem_of_getElem? hi)
      have hw : ¬ e.tag = altoName c!"String" := by
        intro hs
        rw [hs] at hk
        exact hk (by decide +kernel)
      rw [if_neg (by simp [ht]), if_neg hw, List.flatMap_append, ih1 i t hi hlt h1, ih2]
      rfl

/-- Inside of an element of a kind. -/
theorem inside_kind (es : List Elem) : ∀ (i : Nat) (t : Str), altoKinds[i]? = some t → WellNesteds i es →
    ∀ e ∈ elemsBelow es, e.tag = t → WellNesteds (i + 1) e.children := by
  induction es using elem_induction with
  | h0 => intro i t _ _ e he; cases he
  | h1 x es ih1 ih2 =>
    intro i t hi h e he ht
    unfold WellNesteds at h
    obtain ⟨h1, h2⟩ := h
    rw [wellNested_eq] at h1
    rw [elemsBelow_cons] at he
    rcases List.mem_cons.1 he with rfl | he
    · rw [if_pos (by rw [ht]; exact List.mem_of_getElem? hi)] at h1
      exact h1.2
    · rcases List.mem_append.1 he with he | he
      · split at h1
        · have hnone := none_deeper x.children (i + 1) i t hi (by omega) h1.2
          rw [List.filter_eq_nil_iff] at hnone
          exact absurd (decide_eq_true ht) (hnone e he)
        · exact ih1 i t hi h1 e he ht
      · exact ih2 i t hi h2 e he ht

theorem flatMap_filter_hasString (es : List Elem) {β : Type} (f : Elem → List β) (h : ∀ e ∈ es, hasString e = false → f e = []) :
    (es.filter hasString).flatMap f = es.flatMap f := by
  induction es with
  | nil => rfl
  | cons e es ih =>
    have ih := ih (fun x hx => h x (List.mem_cons_of_mem _ hx))
    rw [List.filter_cons, List.flatMap_cons]
    split
    · rw [List.flatMap_cons, ih]
    · next hs => rw [ih, h e List.mem_cons_self (Bool.eq_false_iff.2 hs), List.nil_append]

theorem hasString_false {e : Elem} (h : hasString e = false) : wordElems e.children = [] := by
  unfold hasString altoAll at h
  rw [elemBelow_eq] at h
  rw [Bool.not_eq_false'] at h
  exact List.isEmpty_iff.1 h

/-- **C140.** If words are in lines, lines in blocks and blocks in pages, then the words of the text are those of the document: each of them once, in
document order. -/
theorem C140_words (root : Elem) (h : WellNested 0 root) :
    ((altoLayout root).flatten.flatten.flatten) = altoWords root := by
  have h0 : WellNesteds 0 [root] := ⟨h, trivial⟩
  have line : ∀ block : Elem, WellNesteds 2 block.children →
      ((altoAll c!"TextLine" block).filter hasString).flatMap (fun line => wordElems line.children) = wordElems block.children := by
    intro block hb
    rw [flatMap_filter_hasString _ _ (fun e _ => hasString_false)]
    unfold altoAll
    rw [elemBelow_eq]
    exact words_in_kind block.children 2 _ rfl (by decide) hb
  have blocks : ∀ page : Elem, WellNesteds 1 page.children →
      ((altoAll c!"TextBlock" page).filter hasString).flatMap (fun block =>
        ((altoAll c!"TextLine" block).filter hasString).flatMap (fun line => wordElems line.children)) = wordElems page.children := by
    intro page hp
    have e1 : ∀ block ∈ altoAll c!"TextBlock" page, ((altoAll c!"TextLine" block).filter hasString).flatMap (fun line => wordElems line.children) =
        wordElems block.children := by
      intro block hb
      unfold altoAll at hb
      rw [elemBelow_eq] at hb
      obtain ⟨hm, ht⟩ := List.mem_filter.1 hb
      exact line block (inside_kind page.children 1 _ rfl hp block hm (of_decide_eq_true ht))
    rw [flatMap_filter_hasString _ _ (fun e he hs => by rw [e1 e he]; exact hasString_false hs)]
    rw [← words_in_kind page.children 1 (altoName c!"TextBlock") rfl (by decide) hp]
    unfold altoAll at e1 ⊢
    rw [elemBelow_eq] at e1 ⊢
    rw [List.flatMap_def, List.flatMap_def, List.map_congr_left e1]
  have pages : ((elemsBelow [root]).filter (fun x => x.tag = altoName c!"Page")).flatMap (fun page =>
      ((altoAll c!"TextBlock" page).filter hasString).flatMap (fun block =>
        ((altoAll c!"TextLine" block).filter hasString).flatMap (fun line => wordElems line.children))) = wordElems [root] := by
    rw [← words_in_kind [root] 0 _ rfl (by decide) h0, List.flatMap_def, List.flatMap_def]
    congr 1
    refine List.map_congr_left (fun page hp => blocks page ?_)
    obtain ⟨hm, ht⟩ := List.mem_filter.1 hp
    exact inside_kind [root] 0 _ rfl h0 page hm (of_decide_eq_true ht)
  unfold altoWords
  show _ = (wordElems [root]).map _
  rw [← pages]
  unfold altoLayout
  have flat : ∀ {α β : Type} (f : α → List β) (l : List α), (l.map f).flatten = l.flatMap f := fun f l => (List.flatMap_def ..).symm
  have hs : ∀ line : Elem, (altoAll c!"String" line).map (fun e => e.attrib.getD c!"CONTENT" []) =
      (wordElems line.children).map (fun e => e.attrib.getD c!"CONTENT" []) := by
    intro line
    unfold altoAll wordElems
    rw [elemBelow_eq]
  simp only [hs, List.map_flatMap]
  generalize (elemsBelow [root]).filter (fun x => x.tag = altoName c!"Page") = ps
  induction ps with
  | nil => rfl
  | cons page ps ih =>
    rw [List.map_cons, List.flatten_cons, List.flatten_append, List.flatten_append, List.flatMap_cons, ih]
    congr 1
    generalize (altoAll c!"TextBlock" page).filter hasString = bs
    induction bs with
    | nil => rfl
    | cons block bs ih2 => rw [List.map_cons, List.flatten_cons, List.flatten_append, List.flatMap_cons, ih2, flat]

/-! ### Reading the text -/

theorem parts_plain {α : Type} [DecidableEq α] (c : α) (x s : List α) (h : c ∉ x) :
    partsBetween c (x ++ c :: s) = x :: partsBetween c s := by
  induction x with
  | nil => rw [List.nil_append, partsBetween, if_pos rfl]
  | cons a x ih =>
    rw [List.mem_cons, not_or] at h
    rw [List.cons_append, partsBetween, if_neg (fun e => h.1 e.symm), ih h.2]

theorem parts_end {α : Type} [DecidableEq α] (c : α) (x : List α) (h : c ∉ x) : partsBetween c x = [x] := by
  induction x with
  | nil => rfl
  | cons a x ih =>
    rw [List.mem_cons, not_or] at h
    rw [partsBetween, if_neg (fun e => h.1 e.symm), ih h.2]

theorem parts_flatMap {α : Type} [DecidableEq α] (c : α) (xs : List (List α)) (s : List α) (h : ∀ x ∈ xs, c ∉ x) :
    partsBetween c (xs.flatMap (fun x => x ++ [c]) ++ s) = xs ++ partsBetween c s := by
  induction xs with
  | nil => rfl
  | cons x xs ih =>
    rw [List.flatMap_cons, List.append_assoc, List.append_assoc]
    show partsBetween c (x ++ c :: (xs.flatMap (fun x => x ++ [c]) ++ s)) = _
    rw [parts_plain c x _ (h x List.mem_cons_self), ih (fun y hy => h y (List.mem_cons_of_mem _ hy))]
    rfl

theorem parts_join (c : Char) (ws : List Str) (hne : ws ≠ []) (h : ∀ w ∈ ws, c ∉ w) : partsBetween c (joinStr [c] ws) = ws := by
  induction ws with
  | nil => exact absurd rfl hne
  | cons w ws ih =>
    cases ws with
    | nil => exact parts_end c w (h w List.mem_cons_self)
    | cons v ws =>
      show partsBetween c (w ++ [c] ++ joinStr [c] (v :: ws)) = _
      rw [List.append_assoc]
      show partsBetween c (w ++ c :: joinStr [c] (v :: ws)) = _
      rw [parts_plain c w _ (h w List.mem_cons_self), ih (by simp) (fun x hx => h x (List.mem_cons_of_mem _ hx))]

theorem join_end {β : Type} (sep : Str) (g : β → Str) (xs : List β) (hne : xs ≠ []) :
    joinStr sep (xs.map g) ++ sep = xs.flatMap (fun x => g x ++ sep) := by
  induction xs with
  | nil => exact absurd rfl hne
  | cons x xs ih =>
    cases xs with
    | nil => simp [joinStr]
    | cons y xs =>
      have e : joinStr sep ((x :: y :: xs).map g) = g x ++ sep ++ joinStr sep ((y :: xs).map g) := rfl
      rw [e, List.append_assoc, ih (by simp)]
      rfl

/-- The lines of a text with this layout. -/
theorem layout_parts (P : List (List (List Str))) (hne : P ≠ []) (hp : ∀ p ∈ P, p ≠ []) (hb : ∀ p ∈ P, ∀ b ∈ p, b ≠ [])
    (hl : ∀ p ∈ P, ∀ b ∈ p, ∀ l ∈ b, l ≠ [] ∧ '\n' ∉ l) :
    partsBetween [] (partsBetween [] (partsBetween '\n'
      (joinStr c!"\n\n" (P.map (fun p => joinStr c!"\n" (p.map (fun b => b.flatMap (fun l => l ++ c!"\n"))))) ++ c!"\n"))) = P ++ [[], []] := by
  let A : List (List Str) := P.flatMap (fun p => p ++ [[]])
  have hA : ∀ b ∈ A, [] ∉ b ∧ ∀ l ∈ b, '\n' ∉ l := by
    intro b hb'
    obtain ⟨p, hp1, hp2⟩ := List.mem_flatMap.1 hb'
    rcases List.mem_append.1 hp2 with h | h
    · exact ⟨fun h0 => (hl p hp1 b h [] h0).1 rfl, fun l hl' => (hl p hp1 b h l hl').2⟩
    · rw [List.mem_singleton.1 h]
      exact ⟨by simp, fun l hl' => by cases hl'⟩
  obtain ⟨B', hB'⟩ : ∃ B', A.flatMap (fun b => b ++ [[]]) = B' ++ [[]] := by
    have hAne : A ≠ [] := by
      intro h0
      cases P with
      | nil => exact hne rfl
      | cons p P => simp [A] at h0
    refine ⟨A.dropLast.flatMap (fun b => b ++ [[]]) ++ A.getLast hAne, ?_⟩
    conv => lhs; rw [← List.dropLast_concat_getLast hAne]
    rw [List.flatMap_append]
    simp
  have htext : joinStr c!"\n\n" (P.map (fun p => joinStr c!"\n" (p.map (fun b => b.flatMap (fun l => l ++ c!"\n"))))) ++ c!"\n" =
      B'.flatMap (fun l => l ++ c!"\n") := by
    have e1 : (B' ++ [[]]).flatMap (fun l => l ++ c!"\n") = B'.flatMap (fun l => l ++ c!"\n") ++ c!"\n" := by
      rw [List.flatMap_append]; rfl
    have e2 : (A.flatMap (fun b => b ++ [[]])).flatMap (fun l => l ++ c!"\n") =
        P.flatMap (fun p => joinStr c!"\n" (p.map (fun b => b.flatMap (fun l => l ++ c!"\n"))) ++ c!"\n\n") := by
      show ((P.flatMap (fun p => p ++ [[]])).flatMap (fun b => b ++ [[]])).flatMap (fun l => l ++ c!"\n") = _
      rw [List.flatMap_assoc, List.flatMap_assoc, List.flatMap_def, List.flatMap_def]
      congr 1
      refine List.map_congr_left (fun p hpp => ?_)
      show _ = joinStr c!"\n" (p.map (fun b => b.flatMap (fun l => l ++ c!"\n"))) ++ (c!"\n" ++ c!"\n")
      rw [← List.append_assoc, join_end c!"\n" _ p (hp p hpp), List.flatMap_append]
      congr 1
      rw [List.flatMap_def, List.flatMap_def]
      congr 1
      refine List.map_congr_left (fun b _ => ?_)
      rw [List.flatMap_append]; rfl
    rw [← join_end c!"\n\n" _ P hne] at e2
    rw [hB', e1] at e2
    have e2 : B'.flatMap (fun l => l ++ c!"\n") ++ c!"\n" =
        joinStr c!"\n\n" (P.map (fun p => joinStr c!"\n" (p.map (fun b => b.flatMap (fun l => l ++ c!"\n"))))) ++ (c!"\n" ++ c!"\n") := e2
    rw [← List.append_assoc] at e2
    exact (List.append_cancel_right e2).symm
  rw [htext]
  have hB : ∀ l ∈ B', '\n' ∉ l := by
    intro l hl'
    have : l ∈ A.flatMap (fun b => b ++ [[]]) := by rw [hB']; exact List.mem_append_left _ hl'
    obtain ⟨b, hb1, hb2⟩ := List.mem_flatMap.1 this
    rcases List.mem_append.1 hb2 with h | h
    · exact (hA b hb1).2 l h
    · rw [List.mem_singleton.1 h]; simp
  have s1 := parts_flatMap '\n' B' [] hB
  rw [List.append_nil] at s1
  rw [s1]
  show partsBetween [] (partsBetween [] (B' ++ [[]])) = _
  rw [← hB']
  have s2 := parts_flatMap ([] : Str) A [] (fun b hb' => (hA b hb').1)
  rw [List.append_nil] at s2
  rw [s2]
  show partsBetween [] (P.flatMap (fun p => p ++ [[]]) ++ [[]]) = _
  rw [parts_flatMap ([] : List Str) P [[]] (fun p hpp h0 => hb p hpp [] h0 rfl)]
  rfl

theorem joinStr_plain {ws : List Str} (hne : ws ≠ []) (h : ∀ w ∈ ws, PlainWord w) : joinStr c!" " ws ≠ [] ∧ '\n' ∉ joinStr c!" " ws := by
  induction ws with
  | nil => exact absurd rfl hne
  | cons w ws ih =>
    obtain ⟨h1, _, h3⟩ := h w List.mem_cons_self
    cases ws with
    | nil => exact ⟨h1, h3⟩
    | cons v ws =>
      have ih := ih (by simp) (fun x hx => h x (List.mem_cons_of_mem _ hx))
      show w ++ c!" " ++ joinStr c!" " (v :: ws) ≠ [] ∧ '\n' ∉ w ++ c!" " ++ joinStr c!" " (v :: ws)
      refine ⟨by simp [h1], ?_⟩
      simp only [List.mem_append, not_or]
      exact ⟨⟨h3, by decide⟩, ih.2⟩

/-- **C140.** The pages, blocks, lines and words of a document can be read back from the text, if all words are plain and there is a word on each
page. -/
theorem C140_read_back (root : Elem) (h : WellNested 0 root) (hplain : ∀ w ∈ altoWords root, PlainWord w)
    (hpages : altoLayout root ≠ [] ∧ ∀ page ∈ altoLayout root, page ≠ []) : readLayout (altoText root) = altoLayout root := by
  have hw : ∀ page ∈ altoLayout root, ∀ block ∈ page, ∀ line ∈ block, ∀ w ∈ line, PlainWord w := by
    intro page h1 block h2 line h3 w h4
    refine hplain w ?_
    rw [← C140_words root h]
    exact List.mem_flatten.2 ⟨line, List.mem_flatten.2 ⟨block, List.mem_flatten.2 ⟨page, h1, h2⟩, h3⟩, h4⟩
  have hwords : ∀ e : Elem, hasString e = true → (altoAll c!"String" e).map (fun e => e.attrib.getD c!"CONTENT" []) ≠ [] := by
    intro e he h0
    rw [List.map_eq_nil_iff] at h0
    unfold hasString at he
    rw [h0] at he
    cases he
  have hstruct : ∀ page ∈ altoLayout root, ∀ block ∈ page, block ≠ [] ∧ ∀ line ∈ block, line ≠ [] := by
    intro page h1 block h2
    unfold altoLayout at h1
    obtain ⟨p, hp, rfl⟩ := List.mem_map.1 h1
    obtain ⟨b, hb, rfl⟩ := List.mem_map.1 h2
    constructor
    · intro h0
      rw [List.map_eq_nil_iff] at h0
      -- a block with words has a line with words
      obtain ⟨hb1, hb2⟩ := List.mem_filter.1 hb
      unfold altoAll at hb1
      rw [elemBelow_eq] at hb1
      obtain ⟨hm, ht⟩ := List.mem_filter.1 hb1
      obtain ⟨hpm, hpt⟩ := List.mem_filter.1 hp
      have hn1 := inside_kind [root] 0 _ rfl ⟨h, trivial⟩ p hpm (of_decide_eq_true hpt)
      have hn2 := inside_kind p.children 1 _ rfl hn1 b hm (of_decide_eq_true ht)
      have hwb := words_in_kind b.children 2 _ rfl (by decide) hn2
      have hz : ((elemsBelow b.children).filter (fun x => x.tag = altoName c!"TextLine")).flatMap (fun e => wordElems e.children) = [] := by
        rw [List.flatMap_eq_nil_iff]
        intro e he
        rw [List.filter_eq_nil_iff] at h0
        refine hasString_false (Bool.eq_false_iff.2 (h0 e ?_))
        unfold altoAll
        rw [elemBelow_eq]
        exact he
      have hz' : wordElems b.children = [] := hwb.symm.trans hz
      unfold hasString altoAll at hb2
      rw [elemBelow_eq] at hb2
      unfold wordElems at hz'
      rw [hz'] at hb2
      cases hb2
    · intro line hl
      obtain ⟨l, hl', rfl⟩ := List.mem_map.1 hl
      exact hwords l (List.mem_filter.1 hl').2
  have hparts := layout_parts ((altoLayout root).map (fun page => page.map (fun block => block.map (joinStr c!" "))))
    (by simpa using hpages.1)
    (by
      intro p hp
      obtain ⟨page, h1, rfl⟩ := List.mem_map.1 hp
      simpa using hpages.2 page h1)
    (by
      intro p hp b hb
      obtain ⟨page, h1, rfl⟩ := List.mem_map.1 hp
      obtain ⟨block, h2, rfl⟩ := List.mem_map.1 hb
      simpa using (hstruct page h1 block h2).1)
    (by
      intro p hp b hb l hl
      obtain ⟨page, h1, rfl⟩ := List.mem_map.1 hp
      obtain ⟨block, h2, rfl⟩ := List.mem_map.1 hb
      obtain ⟨line, h3, rfl⟩ := List.mem_map.1 hl
      exact joinStr_plain ((hstruct page h1 block h2).2 line h3) (hw page h1 block h2 line h3))
  have htext : altoText root = joinStr c!"\n\n" (((altoLayout root).map (fun page => page.map (fun block => block.map (joinStr c!" ")))).map
      (fun p => joinStr c!"\n" (p.map (fun b => b.flatMap (fun l => l ++ c!"\n"))))) ++ c!"\n" := by
    rw [C140_layout]
    unfold layoutText
    simp only [List.map_map, Function.comp_def, List.flatMap_map]
    rfl
  unfold readLayout
  rw [htext, hparts]
  have e : ∀ l : List (List (List Str)), (l ++ [[], []]).dropLast.dropLast = l := by
    intro l
    rw [show l ++ [[], []] = (l ++ [[]]) ++ [[]] by simp, List.dropLast_concat, List.dropLast_concat]
  rw [e]
  simp only [List.map_map, Function.comp_def]
  conv => rhs; rw [← List.map_id (altoLayout root)]
  refine List.map_congr_left (fun page h1 => ?_)
  conv => rhs; rw [id, ← List.map_id page]
  refine List.map_congr_left (fun block h2 => ?_)
  conv => rhs; rw [id, ← List.map_id block]
  refine List.map_congr_left (fun line h3 => ?_)
  exact parts_join ' ' line ((hstruct page h1 block h2).2 line h3) (fun w hw' => (hw page h1 block h2 line h3 w hw').2.1)

/-! ### Examples -/

/-- An element of a page. -/
def altoElem (name : Str) (cs : List Elem) : Elem := .mk (altoName name) [] none cs none
/-- A word. -/
def altoWord (s : Str) : Elem := .mk (altoName c!"String") [(c!"CONTENT", s)] none [] none
/-- A document with these pages. -/
def altoDoc (pages : List (List (List (List Str)))) : Elem :=
  altoElem c!"alto" [altoElem c!"Layout" (pages.map (fun p => altoElem c!"Page" [altoElem c!"PrintSpace" (p.map (fun b =>
    altoElem c!"TextBlock" (b.map (fun l => altoElem c!"TextLine" (l.map altoWord)))))]))]

/-- Not vacuous: two pages, a line and a block without words. -/
example : altoText (altoDoc [[[[c!"A", c!"title"], [c!"by", c!"me"]], [[c!"Text"], []], [[]]], [[[c!"More"]]]]) = c!"A title\nby me\n\nText\n\n\nMore\n\n" ∧
    readLayout c!"A title\nby me\n\nText\n\n\nMore\n\n" = [[[[c!"A", c!"title"], [c!"by", c!"me"]], [[c!"Text"]]], [[[c!"More"]]]] := by
  decide +kernel

/-- The conditions hold for it. -/
example : WellNested 0 (altoDoc [[[[c!"A", c!"title"], [c!"by", c!"me"]], [[c!"Text"], []], [[]]], [[[c!"More"]]]]) ∧
    altoWords (altoDoc [[[[c!"A", c!"title"], [c!"by", c!"me"]], [[c!"Text"], []], [[]]], [[[c!"More"]]]]) =
      [c!"A", c!"title", c!"by", c!"me", c!"Text", c!"More"] := by
  refine ⟨?_, by decide +kernel⟩
  have k : ∀ (n : Nat) (name : Str) (cs : List Elem), altoKinds[n]? = some (altoName name) → WellNesteds (n + 1) cs → WellNested n (altoElem name cs) := by
    intro n name cs h1 h2
    rw [wellNested_eq]
    have : (altoElem name cs).tag ∈ altoKinds := List.mem_of_getElem? h1
    rw [if_pos this]
    exact ⟨h1, h2⟩
  have o : ∀ (n : Nat) (name : Str) (cs : List Elem), altoName name ∉ altoKinds → WellNesteds n cs → WellNested n (altoElem name cs) := by
    intro n name cs h1 h2
    rw [wellNested_eq, if_neg (show (altoElem name cs).tag ∉ altoKinds from h1)]
    exact h2
  have m : ∀ (n : Nat) {β : Type} (f : β → Elem) (l : List β), (∀ x, WellNested n (f x)) → WellNesteds n (l.map f) := by
    intro n β f l hf
    induction l with
    | nil => exact trivial
    | cons x l ih => exact ⟨hf x, ih⟩
  have w : ∀ s, WellNested 3 (altoWord s) := by
    intro s
    rw [wellNested_eq, if_pos (show (altoWord s).tag ∈ altoKinds from List.mem_of_getElem? (i := 3) rfl)]
    exact ⟨rfl, trivial⟩
  unfold altoDoc
  refine o 0 _ _ (by decide +kernel) ⟨o 0 _ _ (by decide +kernel) (m 0 _ _ (fun p => k 0 _ _ rfl ⟨o 1 _ _ (by decide +kernel) (m 1 _ _ (fun b =>
    k 1 _ _ rfl (m 2 _ _ (fun l => k 2 _ _ rfl (m 3 _ _ w))))), trivial⟩)), trivial⟩

/-- Words which are not in a line are lost. -/
theorem C140_outside : altoText (altoElem c!"alto" [altoElem c!"Page" [altoElem c!"TextBlock" [altoElem c!"TextLine" [altoWord c!"a"], altoWord c!"b"]]]) =
    c!"a\n\n" := by
  decide +kernel

end Verif
