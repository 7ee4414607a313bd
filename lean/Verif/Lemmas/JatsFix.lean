/-
Lemmas about Model/JatsFix.
-/
import Verif.Spec.JatsFix
import Verif.Lemmas.JatsText

namespace Verif

open Spec

theorem orEmpty_eq (s : Option Str) : orEmpty s = s.getD [] := by cases s <;> rfl

theorem jText_eq (n : JNode) : jText n = orEmpty n.text ++ jTexts n.children := by cases n; rfl

theorem jTexts_cons (n : JNode) (ns : List JNode) : jTexts (n :: ns) = jText n ++ orEmpty n.tail ++ jTexts ns := by
  cases n; rfl

theorem jTexts_append (l r : List JNode) : jTexts (l ++ r) = jTexts l ++ jTexts r := by
  induction l with
  | nil => rfl
  | cons n l ih => rw [List.cons_append, jTexts_cons, jTexts_cons, ih]; simp

@[simp] theorem jText_setTail (n : JNode) (t : Option Str) : jText (n.setTail t) = jText n := by cases n; rfl
@[simp] theorem jText_setAttrs (n : JNode) (a : Dict Str) : jText (n.setAttrs a) = jText n := by cases n; rfl
@[simp] theorem jText_setText (n : JNode) (t : Option Str) : jText (n.setText t) = orEmpty t ++ jTexts n.children := by
  cases n; rfl
@[simp] theorem jText_setChildren (n : JNode) (c : List JNode) : jText (n.setChildren c) = orEmpty n.text ++ jTexts c := by
  cases n; rfl
@[simp] theorem tail_setTail (n : JNode) (t : Option Str) : (n.setTail t).tail = t := by cases n; rfl
@[simp] theorem tail_setAttrs (n : JNode) (a : Dict Str) : (n.setAttrs a).tail = n.tail := by cases n; rfl
@[simp] theorem tail_setText (n : JNode) (t : Option Str) : (n.setText t).tail = n.tail := by cases n; rfl
@[simp] theorem tail_setChildren (n : JNode) (c : List JNode) : (n.setChildren c).tail = n.tail := by cases n; rfl
@[simp] theorem text_setChildren (n : JNode) (c : List JNode) : (n.setChildren c).text = n.text := by cases n; rfl
@[simp] theorem text_setText (n : JNode) (t : Option Str) : (n.setText t).text = t := by cases n; rfl
@[simp] theorem children_setText (n : JNode) (t : Option Str) : (n.setText t).children = n.children := by cases n; rfl
@[simp] theorem children_setAttrs (n : JNode) (t : Dict Str) : (n.setAttrs t).children = n.children := by cases n; rfl

/-! ### From one element to the whole tree -/

/-- A relation between texts that is kept when texts are put together. -/
structure TextRel (R : Str → Str → Prop) : Prop where
  refl : ∀ a, R a a
  append : ∀ a b c d, R a b → R c d → R (a ++ c) (b ++ d)

/-- Text of an element where it is, with its surroundings. -/
def ctxText (c : JCtx) : Str := orEmpty c.text ++ jTexts (c.left ++ c.el :: c.right)

theorem splitAtId_spec {i : Nat} {cs l r : List JNode} {e : JNode} (h : splitAtId i cs = some (l, e, r)) :
    cs = l ++ e :: r ∧ e.id = i := by
  induction cs generalizing l with
  | nil => cases h
  | cons n ns ih =>
    unfold splitAtId at h
    split at h
    · next hi => cases h; exact ⟨rfl, hi⟩
    · split at h
      · cases h
      · next l' e' r' hs =>
        cases h
        obtain ⟨h1, h2⟩ := ih hs
        exact ⟨by rw [h1]; rfl, h2⟩

theorem mem_positions (t : Option Str) (l l' : List JNode) (e : JNode) (r : List JNode) :
    ⟨t, l' ++ l, e, r⟩ ∈ positions t l' (l ++ e :: r) := by
  induction l generalizing l' with
  | nil => simp [positions]
  | cons n l ih =>
    have := ih (l' ++ [n])
    rw [List.append_assoc, List.singleton_append] at this
    exact List.mem_cons_of_mem _ this

/-- If a change of an element relates the texts around it, it relates the texts of the tree. -/
theorem editAt_rel {R : Str → Str → Prop} (hR : TextRel R) (i : Nat) (f : JOp) :
    ∀ (n n' : JNode) (b : Bool),
      (∀ c ∈ contexts n, c.el.id = i → ∀ t cs b, f c = .ok (t, cs, b) → R (orEmpty t ++ jTexts cs) (ctxText c)) →
      editAt i f n = .ok (n', b) → R (jText n') (jText n) ∧ n'.tail = n.tail := by
  intro n
  refine JNode.rec
    (motive_1 := fun n => ∀ (n' : JNode) (b : Bool),
      (∀ c ∈ contexts n, c.el.id = i → ∀ t cs b, f c = .ok (t, cs, b) → R (orEmpty t ++ jTexts cs) (ctxText c)) →
      editAt i f n = .ok (n', b) → R (jText n') (jText n) ∧ n'.tail = n.tail)
    (motive_2 := fun ns => ∀ (ns' : List JNode) (b : Bool),
      (∀ c ∈ contextsList ns, c.el.id = i → ∀ t cs b, f c = .ok (t, cs, b) → R (orEmpty t ++ jTexts cs) (ctxText c)) →
      editAts i f ns = .ok (ns', b) → R (jTexts ns') (jTexts ns)) ?_ ?_ ?_ n
  · intro j g a t cs tl ih n' b hc h
    unfold editAt at h
    cases hs : splitAtId i cs with
    | some p =>
      obtain ⟨l, e, r⟩ := p
      simp only [hs] at h
      obtain ⟨h1, h2⟩ := splitAtId_spec hs
      cases hf : f ⟨t, l, e, r⟩ with
      | error x => simp [hf] at h
      | ok q =>
        obtain ⟨t', cs', b'⟩ := q
        simp only [hf] at h
        cases h
        refine ⟨?_, rfl⟩
        have hmem : (⟨t, l, e, r⟩ : JCtx) ∈ contexts (.mk j g a t cs tl) := by
          unfold contexts
          apply List.mem_append_left
          rw [h1]
          exact mem_positions t l [] e r
        have := hc _ hmem h2 t' cs' b hf
        rw [jText_eq, jText_eq]
        show R (orEmpty t' ++ jTexts cs') (orEmpty t ++ jTexts cs)
        rw [h1]
        exact this
    | none =>
      simp only [hs] at h
      cases he : editAts i f cs with
      | error x => simp [he] at h
      | ok q =>
        obtain ⟨cs', b'⟩ := q
        simp only [he] at h
        cases h
        refine ⟨?_, rfl⟩
        have := ih cs' b (fun c hm => hc c (by unfold contexts; exact List.mem_append_right _ hm)) he
        rw [jText_eq, jText_eq]
        exact hR.append _ _ _ _ (hR.refl _) this
  · intro ns' b _ h
    cases h
    exact hR.refl _
  · intro n ns ih1 ih2 ns' b hc h
    unfold editAts at h
    cases h1 : editAt i f n with
    | error x => simp [h1] at h
    | ok p =>
      obtain ⟨n1, b1⟩ := p
      simp only [h1] at h
      cases h2 : editAts i f ns with
      | error x => simp [h2] at h
      | ok q =>
        obtain ⟨ns2, b2⟩ := q
        simp only [h2] at h
        cases h
        obtain ⟨ha, hb⟩ := ih1 n1 b1 (fun c hm => hc c (by unfold contextsList; exact List.mem_append_left _ hm)) h1
        have hd := ih2 ns2 b2 (fun c hm => hc c (by unfold contextsList; exact List.mem_append_right _ hm)) h2
        rw [jTexts_cons, jTexts_cons, hb]
        exact hR.append _ _ _ _ (hR.append _ _ _ _ ha (hR.refl _)) hd

/-! ### The previous text -/

theorem previous_split (t : Option Str) (l : List JNode) :
    ∃ A, orEmpty t ++ jTexts l = A ++ orEmpty (previousText t l) ∧
      ∀ s, orEmpty (setPreviousText t l s).1 ++ jTexts (setPreviousText t l s).2 = A ++ orEmpty s := by
  unfold previousText setPreviousText
  cases hl : l.getLast? with
  | none =>
    have : l = [] := by simpa using hl
    subst this
    exact ⟨[], by simp [jTexts], fun s => by simp [jTexts]⟩
  | some e =>
    have hne : l ≠ [] := by rintro rfl; simp at hl
    have hlast : l.dropLast ++ [e] = l := by
      have := List.dropLast_concat_getLast hne
      rw [List.getLast?_eq_some_getLast hne] at hl
      cases hl
      exact this
    refine ⟨orEmpty t ++ jTexts l.dropLast ++ jText e, ?_, ?_⟩
    · conv => lhs; rw [← hlast]
      rw [jTexts_append, jTexts_cons]; simp [jTexts]
    · intro s
      simp only []
      rw [jTexts_append, jTexts_cons, jText_setTail, tail_setTail]; simp [jTexts]

theorem addToPrevious_text (t : Option Str) (l : List JNode) (s : Str) :
    orEmpty (addToPrevious t l s).1 ++ jTexts (addToPrevious t l s).2 = orEmpty t ++ jTexts l ++ s := by
  obtain ⟨A, h1, h2⟩ := previous_split t l
  unfold addToPrevious
  rw [h2, h1]
  simp [orEmpty]

theorem sliceStr_split3 (s : Str) {a b : Nat} (h : a ≤ b) : s.take a ++ sliceStr s a b ++ s.drop b = s := by
  unfold sliceStr
  rw [List.drop_take, ← List.take_add, Nat.add_sub_cancel' h, List.take_append_drop]

/-! ### The operations -/

theorem moveFirstOut_text (c : JCtx) : ctxText (moveFirstOut c) = ctxText c := by
  unfold moveFirstOut
  split
  · simp only [ctxText]
    rw [jTexts_append, jTexts_cons, jTexts_append, jTexts_cons, ← List.append_assoc, ← List.append_assoc,
      addToPrevious_text, jText_setText, tail_setText, jText_eq c.el]
    generalize orEmpty c.el.text = t
    conv => rhs; rw [← List.take_append_drop 1 t]
    simp only [orEmpty, List.append_assoc]
  · rfl

theorem moveLastOut_text (e : JNode) (k : Nat) :
    jText (moveLastOut e k) ++ orEmpty (moveLastOut e k).tail = jText e ++ orEmpty e.tail := by
  unfold moveLastOut
  cases hl : e.children.getLast? with
  | none => rfl
  | some last =>
    simp only []
    split
    · have hne : e.children ≠ [] := by intro he; rw [he] at hl; simp at hl
      have hlast : e.children.dropLast ++ [last] = e.children := by
        have := List.dropLast_concat_getLast hne
        rw [List.getLast?_eq_some_getLast hne] at hl
        cases hl
        exact this
      unfold addToTailPrefix
      rw [jText_setTail, tail_setTail, jText_setChildren, tail_setChildren, jText_eq e]
      conv => rhs; rw [← hlast]
      rw [jTexts_append, jTexts_append, jTexts_cons, jTexts_cons, jText_setTail, tail_setTail]
      generalize orEmpty last.tail = t
      conv => rhs; rw [← List.take_append_drop k t]
      simp only [orEmpty, jTexts, List.append_nil, List.append_assoc]
    · rfl

theorem ctxText_el (t : Option Str) (l r : List JNode) (e e' : JNode)
    (h : jText e' ++ orEmpty e'.tail = jText e ++ orEmpty e.tail) :
    ctxText ⟨t, l, e', r⟩ = ctxText ⟨t, l, e, r⟩ := by
  simp only [ctxText]
  rw [jTexts_append, jTexts_append, jTexts_cons, jTexts_cons, h]

theorem quotesOp_text (c : JCtx) : ctxText (quotesOp c) = ctxText c := by
  unfold quotesOp
  simp only []
  split
  · rfl
  · split
    · refine (ctxText_el _ _ _ (moveFirstOut c).el _ (moveLastOut_text _ _)).trans ?_
      exact moveFirstOut_text c
    · split
      · rfl
      · split
        · rfl
        · split
          · exact moveFirstOut_text c
          · rfl

theorem commaOp_text (c : JCtx) : ctxText (commaOp c) = ctxText c := by
  unfold commaOp
  simp only []
  split
  · rfl
  · exact ctxText_el _ _ _ c.el _ (moveLastOut_text _ _)

theorem titleQuotesOp_text {c : JCtx} {t : Option Str} {cs : List JNode} {b : Bool} (h : titleQuotesOp c = .ok (t, cs, b)) :
    orEmpty t ++ jTexts cs = ctxText c := by
  unfold titleQuotesOp at h
  cases h
  exact (commaOp_text (quotesOp c)).trans (quotesOp_text c)

/-- An operation that does not change the element's own text and tail. -/
theorem sameEl_text {t : Option Str} {l r : List JNode} {e e' : JNode} (h1 : jText e' = jText e) (h2 : e'.tail = e.tail) :
    orEmpty t ++ jTexts (l ++ e' :: r) = ctxText ⟨t, l, e, r⟩ :=
  ctxText_el t l r e e' (by rw [h1, h2])

theorem lowerTypeOp_text {env : JatsEnv} {c : JCtx} {t : Option Str} {cs : List JNode} {b : Bool}
    (h : lowerTypeOp env c = .ok (t, cs, b)) : orEmpty t ++ jTexts cs = ctxText c := by
  unfold lowerTypeOp at h
  cases h
  apply sameEl_text <;> split <;> simp

theorem linkHrefOp_text {env : JatsEnv} {c : JCtx} {t : Option Str} {cs : List JNode} {b : Bool}
    (h : linkHrefOp env c = .ok (t, cs, b)) : orEmpty t ++ jTexts cs = ctxText c := by
  unfold linkHrefOp at h
  cases h
  apply sameEl_text <;> split <;> simp

/-- Fewer or equally many of each character. -/
def CountLe (a b : Str) : Prop := ∀ x, a.count x ≤ b.count x

theorem countLe_rel : TextRel CountLe where
  refl := fun _ _ => Nat.le_refl _
  append := by
    intro a b c d h1 h2 x
    rw [List.count_append, List.count_append]
    exact Nat.add_le_add (h1 x) (h2 x)

theorem eq_rel : TextRel (fun a b : Str => a = b) where
  refl := fun _ => rfl
  append := by rintro a b c d rfl rfl; rfl

theorem CountLe.of_eq {a b : Str} (h : a = b) : CountLe a b := h ▸ fun _ => Nat.le_refl _

theorem changeOp_cases {find : Str → Except Err (Option (Nat × Nat))} {c : JCtx} {t : Option Str} {cs : List JNode} {b : Bool}
    (h : changeOp find c = .ok (t, cs, b)) :
    (c.el.text = none ∧ orEmpty t ++ jTexts cs = ctxText c) ∨
    ∃ text, c.el.text = some text ∧
      ((find text = .ok none ∧
        orEmpty t ++ jTexts cs = orEmpty c.text ++ jTexts c.left ++ text ++ jTexts c.right) ∨
      ∃ start stop, find text = .ok (some (start, stop)) ∧
        orEmpty t ++ jTexts cs = orEmpty c.text ++ jTexts c.left ++ text.take start ++ sliceStr text start stop ++
          jTexts c.el.children ++ text.drop stop ++ orEmpty c.el.tail ++ jTexts c.right) := by
  unfold changeOp at h
  cases ht : c.el.text with
  | none => simp only [ht] at h; cases h; exact .inl ⟨rfl, rfl⟩
  | some text =>
    simp only [ht] at h
    right
    refine ⟨text, rfl, ?_⟩
    cases hf : find text with
    | error e => simp [hf] at h
    | ok o =>
      cases o with
      | none =>
        simp only [hf] at h
        cases h
        left
        refine ⟨rfl, ?_⟩
        rw [jTexts_append, ← List.append_assoc, addToPrevious_text]
      | some p =>
        obtain ⟨start, stop⟩ := p
        simp only [hf] at h
        cases h
        right
        refine ⟨start, stop, rfl, ?_⟩
        rw [jTexts_append, ← List.append_assoc, addToPrevious_text, jTexts_cons]
        unfold addToTailPrefix
        rw [jText_setTail, tail_setTail, jText_setText, tail_setText]
        simp [orEmpty]

theorem ctxText_eq (c : JCtx) :
    ctxText c = orEmpty c.text ++ jTexts c.left ++ orEmpty c.el.text ++ jTexts c.el.children ++ orEmpty c.el.tail ++ jTexts c.right := by
  unfold ctxText
  rw [jTexts_append, jTexts_cons, jText_eq]
  simp

theorem changeOp_count {find : Str → Except Err (Option (Nat × Nat))} (hf : ∀ s a b, find s = .ok (some (a, b)) → a ≤ b)
    {c : JCtx} {t : Option Str} {cs : List JNode} {b : Bool}
    (h : changeOp find c = .ok (t, cs, b)) : CountLe (orEmpty t ++ jTexts cs) (ctxText c) := by
  rcases changeOp_cases h with ⟨-, h⟩ | ⟨text, ht, ⟨-, h⟩ | ⟨start, stop, hs, h⟩⟩
  · exact .of_eq h
  · rw [h, ctxText_eq, ht]
    intro x
    simp only [List.count_append, orEmpty]
    omega
  · rw [h, ctxText_eq, ht]
    have := sliceStr_split3 text (hf _ _ _ hs)
    intro x
    have := congrArg (List.count x) this
    simp only [List.count_append, orEmpty] at *
    omega

theorem isEmpty_eq {s : Str} (h : s.isEmpty = true) : s = [] := List.isEmpty_iff.mp h

theorem changeOp_safe {find : Str → Except Err (Option (Nat × Nat))} (hf : ∀ s a b, find s = .ok (some (a, b)) → a ≤ b)
    {c : JCtx} {t : Option Str} {cs : List JNode} {b : Bool}
    (hsafe : ∀ text, c.el.text = some text → (find text = .ok none → leafText c.el = true ∧ noTail c.el = true) ∧
      ∀ start stop, find text = .ok (some (start, stop)) → leafText c.el = true ∨ text.drop stop = [])
    (h : changeOp find c = .ok (t, cs, b)) : orEmpty t ++ jTexts cs = ctxText c := by
  rcases changeOp_cases h with ⟨-, h⟩ | ⟨text, ht, ⟨hs, h⟩ | ⟨start, stop, hs, h⟩⟩
  · exact h
  · obtain ⟨h1, h2⟩ := (hsafe text ht).1 hs
    have h1 : jTexts c.el.children = [] := isEmpty_eq h1
    have h2 : orEmpty c.el.tail = [] := by rw [orEmpty_eq]; exact isEmpty_eq h2
    rw [h, ctxText_eq, ht, h1, h2]
    simp [orEmpty]
  · rw [h, ctxText_eq, ht]
    rcases (hsafe text ht).2 start stop hs with h1 | h1
    · have h1 : jTexts c.el.children = [] := isEmpty_eq h1
      rw [h1]
      have := sliceStr_split3 text (hf _ _ _ hs)
      simp only [List.append_nil, orEmpty, List.append_assoc] at *
      conv => rhs; rw [← this]
      simp only [List.append_assoc]
    · have := sliceStr_split3 text (hf _ _ _ hs)
      rw [h1, List.append_nil] at this
      rw [h1]
      simp only [List.append_nil, orEmpty, List.append_assoc] at *
      conv => rhs; rw [← this]
      simp only [List.append_assoc]

theorem doiLinkOp_cases {env : JatsEnv} {fresh : Nat} {c : JCtx} {t : Option Str} {cs : List JNode} {b : Bool}
    (h : doiLinkOp env fresh c = .ok (t, cs, b)) :
    orEmpty t ++ jTexts cs = ctxText c ∨
      orEmpty t ++ jTexts cs = orEmpty c.text ++ jTexts c.left ++ orEmpty c.el.text ++ orEmpty c.el.tail ++ jTexts c.right := by
  unfold doiLinkOp at h
  obtain ⟨A, h1, h2⟩ := previous_split c.text c.left
  cases hp : previousText c.text c.left with
  | none => simp [hp] at h
  | some prev =>
    simp only [hp] at h
    cases hd : env.doiUrlPrefix prev with
    | none => simp only [hd] at h; cases h; exact .inl rfl
    | some p =>
      simp only [hd] at h
      cases ht : c.el.text with
      | none => simp [ht] at h
      | some text =>
        simp only [ht] at h
        cases h
        right
        rw [jTexts_append, ← List.append_assoc, h2, h1, hp, jTexts_cons, jText_eq]
        have htail : orEmpty (if truthy c.el.tail = true then c.el.tail else none) = orEmpty c.el.tail := by
          split
          · rfl
          · next hn =>
            cases hct : c.el.tail with
            | none => rfl
            | some s =>
              cases s with
              | nil => rfl
              | cons _ _ => rw [hct] at hn; exact absurd rfl hn
        show A ++ orEmpty (some (prev.take p.1)) ++ (orEmpty (some (prev.drop p.1 ++ text)) ++ jTexts [] ++
          orEmpty (if truthy c.el.tail = true then c.el.tail else none) ++ jTexts c.right) = _
        rw [htail]
        conv => rhs; rw [show orEmpty (some prev) = prev.take p.1 ++ prev.drop p.1 from (List.take_append_drop _ _).symm]
        simp only [orEmpty, jTexts, List.append_nil, List.append_assoc]

theorem doiLinkOp_count {env : JatsEnv} {fresh : Nat} {c : JCtx} {t : Option Str} {cs : List JNode} {b : Bool}
    (h : doiLinkOp env fresh c = .ok (t, cs, b)) : CountLe (orEmpty t ++ jTexts cs) (ctxText c) := by
  rcases doiLinkOp_cases h with h | h
  · exact .of_eq h
  · rw [h, ctxText_eq]
    intro x
    simp only [List.count_append]
    omega

theorem doiLinkOp_safe {env : JatsEnv} {fresh : Nat} {c : JCtx} {t : Option Str} {cs : List JNode} {b : Bool}
    (hs : leafText c.el = true) (h : doiLinkOp env fresh c = .ok (t, cs, b)) : orEmpty t ++ jTexts cs = ctxText c := by
  rcases doiLinkOp_cases h with h | h
  · exact h
  · have h1 : jTexts c.el.children = [] := isEmpty_eq hs
    rw [h, ctxText_eq, h1]
    simp

theorem jTexts_links (cc : CharClass) (fresh : Nat) (l : List Str) (k : Nat) :
    jTexts ((l.zipIdx k).map (fun p => extLinkElement cc (fresh + p.2) p.1 none)) = l.flatten := by
  induction l generalizing k with
  | nil => rfl
  | cons s l ih =>
    rw [List.zipIdx_cons, List.map_cons, jTexts_cons, ih]
    simp [extLinkElement, jText, jTexts, orEmpty, JNode.tail]

theorem splitLinkOp_cases {env : JatsEnv} {fresh : Nat} {c : JCtx} {t : Option Str} {cs : List JNode} {b : Bool}
    (h : splitLinkOp env fresh c = .ok (t, cs, b)) :
    orEmpty t ++ jTexts cs = ctxText c ∨
      ∃ x rest, splitUrl (orEmpty c.el.text) = x :: rest ∧ rest ≠ [] ∧
        orEmpty t ++ jTexts cs = orEmpty c.text ++ jTexts c.left ++ x ++ jTexts c.el.children ++ orEmpty c.el.tail ++
          rest.flatten ++ jTexts c.right := by
  unfold splitLinkOp at h
  simp only [] at h
  split at h
  · cases h; exact .inl rfl
  · split at h
    · cases h; exact .inl rfl
    · cases h
      have hcat := (splitUrl_spec (orEmpty c.el.text)).1
      generalize splitUrl (orEmpty c.el.text) = hrefs at *
      match hrefs with
      | [] =>
        left
        simp [ctxText]
      | [x] =>
        left
        simp [ctxText]
      | x :: y :: rest =>
        right
        refine ⟨x, y :: rest, rfl, by simp, ?_⟩
        have hlinks := jTexts_links env.cc fresh (y :: rest) 0
        simp only [List.drop_succ_cons, List.drop_zero]
        rw [List.append_assoc, jTexts_append, List.cons_append, jTexts_cons, jTexts_append, hlinks, jText_setAttrs, jText_setText, tail_setAttrs,
          tail_setText]
        simp [orEmpty]

theorem splitLinkOp_count {env : JatsEnv} {fresh : Nat} {c : JCtx} {t : Option Str} {cs : List JNode} {b : Bool}
    (h : splitLinkOp env fresh c = .ok (t, cs, b)) : CountLe (orEmpty t ++ jTexts cs) (ctxText c) := by
  rcases splitLinkOp_cases h with h | ⟨x, rest, hs, -, h⟩
  · exact .of_eq h
  · have hcat := (splitUrl_spec (orEmpty c.el.text)).1
    rw [hs, List.flatten_cons] at hcat
    rw [h, ctxText_eq, ← hcat]
    intro y
    simp only [List.count_append]
    omega

theorem splitLinkOp_safe {env : JatsEnv} {fresh : Nat} {c : JCtx} {t : Option Str} {cs : List JNode} {b : Bool}
    (hsafe : (splitUrl (orEmpty c.el.text)).length ≤ 1 ∨ (leafText c.el = true ∧ noTail c.el = true))
    (h : splitLinkOp env fresh c = .ok (t, cs, b)) : orEmpty t ++ jTexts cs = ctxText c := by
  rcases splitLinkOp_cases h with h | ⟨x, rest, hs, hne, h⟩
  · exact h
  · have hcat := (splitUrl_spec (orEmpty c.el.text)).1
    rw [hs] at hcat hsafe
    rw [List.flatten_cons] at hcat
    rcases hsafe with h1 | ⟨h1, h2⟩
    · cases rest with
      | nil => exact absurd rfl hne
      | cons _ _ => simp at h1
    · have h1 : jTexts c.el.children = [] := isEmpty_eq h1
      have h2 : orEmpty c.el.tail = [] := by rw [orEmpty_eq]; exact isEmpty_eq h2
      rw [h, ctxText_eq, ← hcat, h1, h2]
      simp

/-- Created elements consist of the text they are created from. -/
def Creates (create : Str → Option Str → JNode) : Prop := ∀ s t, jText (create s t) = s ∧ (create s t).tail = t

theorem addToTails_text {find : Str → Except Err (Option (Nat × Nat))} (hf : ∀ s a b, find s = .ok (some (a, b)) → a ≤ b)
    {create : Str → Option Str → JNode} (hcr : Creates create) {ns ns' : List JNode}
    (h : addToTails find create ns = .ok (some ns')) : jTexts ns' = jTexts ns := by
  induction ns generalizing ns' with
  | nil => cases h
  | cons n ns ih =>
    unfold addToTails at h
    split at h
    · cases h
    · next start stop hs =>
      cases h
      have hs : find (orEmpty n.tail) = .ok (some (start, stop)) := by
        split at hs
        · exact hs
        · cases hs
      rw [jTexts_cons, jTexts_cons, jTexts_cons, jText_setTail, tail_setTail, (hcr _ _).1, (hcr _ _).2]
      conv => rhs; rw [← sliceStr_split3 (orEmpty n.tail) (hf _ _ _ hs)]
      simp [orEmpty]
    · cases hr : addToTails find create ns with
      | error x => simp [hr] at h
      | ok o =>
        cases o with
        | none => simp [hr] at h
        | some r =>
          simp only [hr] at h
          cases h
          rw [jTexts_cons, jTexts_cons, ih hr]

theorem addToComments_count {find : Str → Except Err (Option (Nat × Nat))} (hf : ∀ s a b, find s = .ok (some (a, b)) → a ≤ b)
    {create : Str → Option Str → JNode} (hcr : Creates create) {ns ns' : List JNode}
    (h : addToComments find create ns = .ok ns') : CountLe (jTexts ns') (jTexts ns) := by
  induction ns generalizing ns' with
  | nil => cases h; exact countLe_rel.refl _
  | cons n ns ih =>
    unfold addToComments at h
    split at h
    · cases h
    · next start stop hs =>
      cases h
      have hs : find (orEmpty n.text) = .ok (some (start, stop)) := by
        split at hs
        · exact hs
        · cases hs
      rw [jTexts_cons, jTexts_cons, jTexts_cons, jText_setText, tail_setText, (hcr _ _).1, (hcr _ _).2, jText_eq]
      have := sliceStr_split3 (orEmpty n.text) (hf _ _ _ hs)
      intro x
      have := congrArg (List.count x) this
      simp only [List.count_append, orEmpty] at *
      omega
    · cases hr : addToComments find create ns with
      | error x => simp [hr] at h
      | ok r =>
        simp only [hr] at h
        cases h
        rw [jTexts_cons, jTexts_cons]
        exact countLe_rel.append _ _ _ _ (countLe_rel.refl _) (ih hr)

theorem addToComments_safe {find : Str → Except Err (Option (Nat × Nat))} (hf : ∀ s a b, find s = .ok (some (a, b)) → a ≤ b)
    {create : Str → Option Str → JNode} (hcr : Creates create) {ns ns' : List JNode}
    (hsafe : ∀ n ∈ ns, n.tag = c!"comment" → leafText n = true ∧ noTail n = true)
    (h : addToComments find create ns = .ok ns') : jTexts ns' = jTexts ns := by
  induction ns generalizing ns' with
  | nil => cases h; rfl
  | cons n ns ih =>
    unfold addToComments at h
    split at h
    · cases h
    · next start stop hs =>
      cases h
      by_cases hc : n.tag = c!"comment" ∧ truthy n.text = true
      · rw [if_pos hc] at hs
        obtain ⟨h1, h2⟩ := hsafe n List.mem_cons_self hc.1
        have h1 : jTexts n.children = [] := isEmpty_eq h1
        have h2 : orEmpty n.tail = [] := by rw [orEmpty_eq]; exact isEmpty_eq h2
        rw [jTexts_cons, jTexts_cons, jTexts_cons, jText_setText, tail_setText, (hcr _ _).1, (hcr _ _).2, jText_eq n, h1, h2]
        conv => rhs; rw [← sliceStr_split3 (orEmpty n.text) (hf _ _ _ hs)]
        simp [orEmpty]
      · rw [if_neg hc] at hs
        cases hs
    · cases hr : addToComments find create ns with
      | error x => simp [hr] at h
      | ok r =>
        simp only [hr] at h
        cases h
        rw [jTexts_cons, jTexts_cons, ih (fun m hm => hsafe m (List.mem_cons_of_mem _ hm)) hr]

theorem addAnnotation_cases {find : Str → Except Err (Option (Nat × Nat))} (hf : ∀ s a b, find s = .ok (some (a, b)) → a ≤ b)
    {create : Str → Option Str → JNode} (hcr : Creates create) {pc : Bool} {e e' : JNode} {b : Bool}
    (h : addAnnotation find create pc e = .ok (e', b)) :
    e'.tail = e.tail ∧ (jText e' = jText e ∨
      pc = true ∧ ∃ cs, addToComments find create e.children = .ok cs ∧ jText e' = orEmpty e.text ++ jTexts cs) := by
  unfold addAnnotation at h
  split at h
  · cases h
  · next start stop hs =>
    cases h
    have hs : find (orEmpty e.text) = .ok (some (start, stop)) := by
      split at hs
      · exact hs
      · cases hs
    refine ⟨by simp, .inl ?_⟩
    rw [jText_setChildren, text_setText, jTexts_cons, (hcr _ _).1, (hcr _ _).2, jText_eq e]
    conv => rhs; rw [← sliceStr_split3 (orEmpty e.text) (hf _ _ _ hs)]
    simp [orEmpty]
  · cases ht : addToTails find create e.children with
    | error x => simp [ht] at h
    | ok o =>
      cases o with
      | some cs =>
        simp only [ht] at h
        cases h
        exact ⟨by simp, .inl (by rw [jText_setChildren, addToTails_text hf hcr ht, jText_eq e])⟩
      | none =>
        simp only [ht] at h
        split at h
        · next hpc =>
          cases hc : addToComments find create e.children with
          | error x => simp [hc] at h
          | ok cs =>
            simp only [hc] at h
            cases h
            exact ⟨by simp, .inr ⟨hpc, cs, rfl, by rw [jText_setChildren]⟩⟩
        · cases h
          exact ⟨rfl, .inl rfl⟩

theorem addOp_count {find : Str → Except Err (Option (Nat × Nat))} (hf : ∀ s a b, find s = .ok (some (a, b)) → a ≤ b)
    {create : Str → Option Str → JNode} (hcr : Creates create) {pc : Bool} {c : JCtx} {t : Option Str} {cs : List JNode} {b : Bool}
    (h : addOp find create pc c = .ok (t, cs, b)) : CountLe (orEmpty t ++ jTexts cs) (ctxText c) := by
  unfold addOp at h
  cases ha : addAnnotation find create pc c.el with
  | error x => simp [ha] at h
  | ok p =>
    obtain ⟨e, stop⟩ := p
    simp only [ha] at h
    cases h
    obtain ⟨h1, h2⟩ := addAnnotation_cases hf hcr ha
    rcases h2 with h2 | ⟨-, cs', hcs, h2⟩
    · exact .of_eq (sameEl_text h2 h1)
    · have := addToComments_count hf hcr hcs
      rw [jTexts_append, jTexts_cons, h1, h2, ctxText_eq]
      intro x
      have := this x
      simp only [List.count_append]
      omega

theorem addOp_safe {find : Str → Except Err (Option (Nat × Nat))} (hf : ∀ s a b, find s = .ok (some (a, b)) → a ≤ b)
    {create : Str → Option Str → JNode} (hcr : Creates create) {pc : Bool} {c : JCtx} {t : Option Str} {cs : List JNode} {b : Bool}
    (hsafe : pc = true → ∀ n ∈ c.el.children, n.tag = c!"comment" → leafText n = true ∧ noTail n = true)
    (h : addOp find create pc c = .ok (t, cs, b)) : orEmpty t ++ jTexts cs = ctxText c := by
  unfold addOp at h
  cases ha : addAnnotation find create pc c.el with
  | error x => simp [ha] at h
  | ok p =>
    obtain ⟨e, stop⟩ := p
    simp only [ha] at h
    cases h
    obtain ⟨h1, h2⟩ := addAnnotation_cases hf hcr ha
    rcases h2 with h2 | ⟨hpc, cs', hcs, h2⟩
    · exact sameEl_text h2 h1
    · refine sameEl_text ?_ h1
      rw [h2, addToComments_safe hf hcr (hsafe hpc) hcs, jText_eq c.el]

/-! ### The steps -/

theorem creates_pubId (i : Nat) (type : Str) : Creates (fun s => pubIdElement i s type) := by
  intro s t
  exact ⟨by simp [pubIdElement, jText, jTexts, orEmpty], rfl⟩

theorem fixFind_ordered {env : JatsEnv} (ho : SpansOrdered env) (k : JatsFix) :
    ∀ s a b, fixFind env k s = .ok (some (a, b)) → a ≤ b := by
  intro s a b h
  have hdoi : findDoi env.toJatsTextEnv s = .ok (some (a, b)) → a ≤ b := by
    intro h
    unfold findDoi at h
    split at h
    · cases h
    · simp only [] at h
      split at h
      · cases h
      · split at h
        · split at h
          · cases h; omega
          · cases h
        · split at h
          · cases h; omega
          · cases h
  cases k <;> simp only [fixFind] at h
  case title =>
    unfold findArticleTitle at h
    generalize hg : (env.titleSpan s).getD (0, s.length) = p at h
    obtain ⟨x, y⟩ := p
    have hxy : x ≤ y := by
      cases ht : env.titleSpan s with
      | none => rw [ht] at hg; cases hg; omega
      | some q => rw [ht] at hg; cases hg; exact ho.title s _ _ ht
    simp only [] at h
    split at h
    · next hq =>
      unfold hasSurroundingQuotes at hq
      rw [Bool.and_eq_true, decide_eq_true_eq] at hq
      cases h; omega
    · cases h; exact hxy
  case doi => exact hdoi h
  case addDoi => exact hdoi h
  case linkText =>
    unfold findExtLink at h
    split at h <;> cases h <;> omega
  case pii => injection h with h; exact ho.piiValid s _ _ h
  case addPii => injection h with h; exact ho.piiValid s _ _ h
  case pmid => injection h with h; exact ho.pmidFix s _ _ h
  case addPmid => injection h with h; exact ho.pmid s _ _ h
  case pmcid => injection h with h; exact ho.pmcid s _ _ h
  case addPmcid => injection h with h; exact ho.pmcid s _ _ h
  case addPiiOther => injection h with h; exact ho.piiOther s _ _ h
  case addWos => injection h with h; exact ho.wos s _ _ h
  all_goals cases h

theorem fixOp_count {env : JatsEnv} (ho : SpansOrdered env) (k : JatsFix) (fresh : Nat) (c : JCtx) (t : Option Str)
    (cs : List JNode) (b : Bool) (h : fixOp env k fresh c = .ok (t, cs, b)) :
    CountLe (orEmpty t ++ jTexts cs) (ctxText c) := by
  have hf := fixFind_ordered ho k
  cases k <;> simp only [fixOp] at h
  case lowerType => exact .of_eq (lowerTypeOp_text h)
  case titleQuotes => exact .of_eq (titleQuotesOp_text h)
  case linkHref => exact .of_eq (linkHrefOp_text h)
  case doiLink => exact doiLinkOp_count h
  case splitLink => exact splitLinkOp_count h
  case title | doi | linkText | pii | pmid | pmcid => exact changeOp_count hf h
  all_goals exact addOp_count hf (creates_pubId _ _) h

theorem fixOp_safe {env : JatsEnv} (ho : SpansOrdered env) (k : JatsFix) (fresh : Nat) (c : JCtx) (hs : safeAt env k c = true)
    (t : Option Str) (cs : List JNode) (b : Bool) (h : fixOp env k fresh c = .ok (t, cs, b)) :
    orEmpty t ++ jTexts cs = ctxText c := by
  have hf := fixFind_ordered ho k
  have hchange : (match c.el.text with
      | none => true
      | some text =>
        match fixFind env k text with
        | .error _ => true
        | .ok none => leafText c.el && noTail c.el
        | .ok (some (_, stop)) => leafText c.el || (text.drop stop).isEmpty) = true →
      changeOp (fixFind env k) c = .ok (t, cs, b) → orEmpty t ++ jTexts cs = ctxText c := by
    intro hs h
    refine changeOp_safe hf ?_ h
    intro text ht
    rw [ht] at hs
    simp only [] at hs
    constructor
    · intro hn
      rw [hn] at hs
      simpa using hs
    · intro start stop hn
      rw [hn] at hs
      simp only [Bool.or_eq_true] at hs
      exact hs.imp id isEmpty_eq
  have hadd : ∀ {create : Str → Option Str → JNode}, Creates create →
      c.el.children.all (fun n => n.tag ≠ c!"comment" || (leafText n && noTail n)) = true →
      addOp (fixFind env k) create true c = .ok (t, cs, b) → orEmpty t ++ jTexts cs = ctxText c := by
    intro create hcr hs h
    refine addOp_safe hf hcr ?_ h
    intro _ n hn htag
    have := List.all_eq_true.mp hs n hn
    simpa [htag] using this
  cases k <;> simp only [fixOp] at h <;> simp only [safeAt] at hs
  case lowerType => exact lowerTypeOp_text h
  case titleQuotes => exact titleQuotesOp_text h
  case linkHref => exact linkHrefOp_text h
  case doiLink => exact doiLinkOp_safe hs h
  case splitLink =>
    refine splitLinkOp_safe ?_ h
    rw [orEmpty_eq]
    simpa using hs
  case title | doi | linkText | pii | pmid | pmcid => exact hchange hs h
  case addPmid | addPmcid | addWos => exact hadd (creates_pubId _ _) hs h
  all_goals exact addOp_safe hf (creates_pubId _ _) (fun hpc => by cases hpc) h

theorem runIds_count {env : JatsEnv} (ho : SpansOrdered env) (k : JatsFix) (is : List Nat) (n n' : JNode)
    (h : runIds env k is n = .ok n') : CountLe (jText n') (jText n) := by
  induction is generalizing n with
  | nil => cases h; exact countLe_rel.refl _
  | cons i is ih =>
    unfold runIds at h
    cases he : editAt i (fixOp env k (freshId n)) n with
    | error x => simp [he] at h
    | ok p =>
      obtain ⟨n1, stop⟩ := p
      simp only [he] at h
      have h1 := (editAt_rel countLe_rel i _ n n1 stop
        (fun c _ _ t cs b hf => fixOp_count ho k _ c t cs b hf) he).1
      cases stop with
      | true => cases h; exact h1
      | false => exact fun x => Nat.le_trans (ih n1 h x) (h1 x)

theorem runFixes_count {env : JatsEnv} (ho : SpansOrdered env) (ks : List JatsFix) (n n' : JNode)
    (h : runFixes env ks n = .ok n') : CountLe (jText n') (jText n) := by
  induction ks generalizing n with
  | nil => cases h; exact countLe_rel.refl _
  | cons k ks ih =>
    unfold runFixes at h
    cases he : runFix env k n with
    | error x => simp [he] at h
    | ok n1 =>
      simp only [he] at h
      exact fun x => Nat.le_trans (ih n1 h x) (runIds_count ho k _ n n1 he x)

theorem runIds_safe {env : JatsEnv} (ho : SpansOrdered env) (k : JatsFix) (is : List Nat) (n n' : JNode)
    (hs : safeIds env k is n = true) (h : runIds env k is n = .ok n') : jText n' = jText n := by
  induction is generalizing n with
  | nil => cases h; rfl
  | cons i is ih =>
    unfold runIds at h
    unfold safeIds at hs
    rw [Bool.and_eq_true] at hs
    cases he : editAt i (fixOp env k (freshId n)) n with
    | error x => simp [he] at h
    | ok p =>
      obtain ⟨n1, stop⟩ := p
      simp only [he] at h hs
      have h1 := (editAt_rel eq_rel i _ n n1 stop
        (fun c hc hi t cs b hf => fixOp_safe ho k _ c (by
          have := List.all_eq_true.mp hs.1 c hc
          simpa [hi] using this) t cs b hf) he).1
      cases stop with
      | true => cases h; exact h1
      | false => exact (ih n1 hs.2 h).trans h1

theorem runFixes_safe {env : JatsEnv} (ho : SpansOrdered env) (ks : List JatsFix) (n n' : JNode)
    (hs : safeRun env ks n = true) (h : runFixes env ks n = .ok n') : jText n' = jText n := by
  induction ks generalizing n with
  | nil => cases h; rfl
  | cons k ks ih =>
    unfold runFixes at h
    unfold safeRun at hs
    rw [Bool.and_eq_true] at hs
    cases he : runFix env k n with
    | error x => simp [he] at h
    | ok n1 =>
      simp only [he] at h hs
      exact (ih n1 hs.2 h).trans (runIds_safe ho k _ n n1 hs.1 he)

end Verif

namespace Verif

open Spec

/-! ### Properties of all elements -/

theorem jAlls_append (l r : List JNode) : jAlls (l ++ r) = jAlls l ++ jAlls r := by
  induction l with
  | nil => rfl
  | cons n l ih => simp [jAlls, ih]

theorem jAlls_cons (n : JNode) (ns : List JNode) : jAlls (n :: ns) = n :: (jAlls n.children ++ jAlls ns) := by
  cases n; simp [jAlls, jAll, JNode.children]

/-- A property of elements that does not depend on the text of citations and comments and on tails
and children. -/
structure AddStable (P : JNode → Prop) : Prop where
  tail : ∀ n t, P n → P (n.setTail t)
  children : ∀ n cs, P n → P (n.setChildren cs)
  text : ∀ n t, n.tag ≠ c!"pub-id" → P n → P (n.setText t)

theorem addToTails_all {P : JNode → Prop} (hP : AddStable P) {find : Str → Except Err (Option (Nat × Nat))}
    {create : Str → Option Str → JNode}
    (hc : ∀ s a b t, find s = .ok (some (a, b)) → ∀ e ∈ jAll (create (sliceStr s a b) t), P e) {ns ns' : List JNode}
    (h : addToTails find create ns = .ok (some ns')) (hall : ∀ e ∈ jAlls ns, P e) : ∀ e ∈ jAlls ns', P e := by
  induction ns generalizing ns' with
  | nil => cases h
  | cons n ns ih =>
    rw [jAlls_cons] at hall
    unfold addToTails at h
    split at h
    · cases h
    · next start stop hs =>
      cases h
      have hs : find (orEmpty n.tail) = .ok (some (start, stop)) := by
        split at hs
        · exact hs
        · cases hs
      intro e he
      rw [jAlls_cons] at he
      rcases List.mem_cons.mp he with rfl | he
      · exact hP.tail _ _ (hall n List.mem_cons_self)
      · rcases List.mem_append.mp he with he | he
        · exact hall e (List.mem_cons_of_mem _ (List.mem_append_left _ (by cases n; exact he)))
        · unfold jAlls at he
          rcases List.mem_append.mp he with he | he
          · exact hc _ _ _ _ hs e he
          · exact hall e (List.mem_cons_of_mem _ (List.mem_append_right _ he))
    · cases hr : addToTails find create ns with
      | error x => simp [hr] at h
      | ok o =>
        cases o with
        | none => simp [hr] at h
        | some r =>
          simp only [hr] at h
          cases h
          intro e he
          rw [jAlls_cons] at he
          rcases List.mem_cons.mp he with rfl | he
          · exact hall _ List.mem_cons_self
          · rcases List.mem_append.mp he with he | he
            · exact hall e (List.mem_cons_of_mem _ (List.mem_append_left _ he))
            · exact ih hr (fun e he => hall e (List.mem_cons_of_mem _ (List.mem_append_right _ he))) e he

theorem addToComments_all {P : JNode → Prop} (hP : AddStable P) {find : Str → Except Err (Option (Nat × Nat))}
    {create : Str → Option Str → JNode}
    (hc : ∀ s a b t, find s = .ok (some (a, b)) → ∀ e ∈ jAll (create (sliceStr s a b) t), P e) {ns ns' : List JNode}
    (h : addToComments find create ns = .ok ns') (hall : ∀ e ∈ jAlls ns, P e) : ∀ e ∈ jAlls ns', P e := by
  induction ns generalizing ns' with
  | nil => cases h; exact hall
  | cons n ns ih =>
    rw [jAlls_cons] at hall
    unfold addToComments at h
    split at h
    · cases h
    · next start stop hs =>
      cases h
      by_cases hcm : n.tag = c!"comment" ∧ truthy n.text = true
      · rw [if_pos hcm] at hs
        intro e he
        rw [jAlls_cons] at he
        rcases List.mem_cons.mp he with rfl | he
        · exact hP.text _ _ (by rw [hcm.1]; decide) (hall n List.mem_cons_self)
        · rcases List.mem_append.mp he with he | he
          · exact hall e (List.mem_cons_of_mem _ (List.mem_append_left _ (by cases n; exact he)))
          · unfold jAlls at he
            rcases List.mem_append.mp he with he | he
            · exact hc _ _ _ _ hs e he
            · exact hall e (List.mem_cons_of_mem _ (List.mem_append_right _ he))
      · rw [if_neg hcm] at hs
        cases hs
    · cases hr : addToComments find create ns with
      | error x => simp [hr] at h
      | ok r =>
        simp only [hr] at h
        cases h
        intro e he
        rw [jAlls_cons] at he
        rcases List.mem_cons.mp he with rfl | he
        · exact hall _ List.mem_cons_self
        · rcases List.mem_append.mp he with he | he
          · exact hall e (List.mem_cons_of_mem _ (List.mem_append_left _ he))
          · exact ih hr (fun e he => hall e (List.mem_cons_of_mem _ (List.mem_append_right _ he))) e he

theorem addOp_all {P : JNode → Prop} (hP : AddStable P) {find : Str → Except Err (Option (Nat × Nat))}
    {create : Str → Option Str → JNode}
    (hc : ∀ s a b t, find s = .ok (some (a, b)) → ∀ e ∈ jAll (create (sliceStr s a b) t), P e) {pc : Bool} {c : JCtx}
    {t : Option Str} {cs : List JNode} {b : Bool} (htag : c.el.tag ≠ c!"pub-id")
    (h : addOp find create pc c = .ok (t, cs, b)) (hall : ∀ e ∈ jAlls (c.left ++ c.el :: c.right), P e) :
    t = c.text ∧ ∀ e ∈ jAlls cs, P e := by
  unfold addOp at h
  cases ha : addAnnotation find create pc c.el with
  | error x => simp [ha] at h
  | ok p =>
    obtain ⟨el, stop⟩ := p
    simp only [ha] at h
    cases h
    refine ⟨rfl, ?_⟩
    rw [jAlls_append, jAlls_cons] at hall
    have hel : P c.el := hall _ (List.mem_append_right _ List.mem_cons_self)
    have hch : ∀ e ∈ jAlls c.el.children, P e :=
      fun e he => hall e (List.mem_append_right _ (List.mem_cons_of_mem _ (List.mem_append_left _ he)))
    have hres : P el ∧ ∀ e ∈ jAlls el.children, P e := by
      unfold addAnnotation at ha
      split at ha
      · cases ha
      · next start stop' hs =>
        cases ha
        have hs : find (orEmpty c.el.text) = .ok (some (start, stop')) := by
          split at hs
          · exact hs
          · cases hs
        refine ⟨hP.children _ _ (hP.text _ _ htag hel), ?_⟩
        intro e he
        have he : e ∈ jAll (create (sliceStr (orEmpty c.el.text) start stop') (some ((orEmpty c.el.text).drop stop'))) ++
          jAlls c.el.children := he
        rcases List.mem_append.mp he with he | he
        · exact hc _ _ _ _ hs e he
        · exact hch e he
      · cases ht : addToTails find create c.el.children with
        | error x => simp [ht] at ha
        | ok o =>
          cases o with
          | some cs =>
            simp only [ht] at ha
            cases ha
            exact ⟨hP.children _ _ hel, addToTails_all hP hc ht hch⟩
          | none =>
            simp only [ht] at ha
            split at ha
            · cases hcm : addToComments find create c.el.children with
              | error x => simp [hcm] at ha
              | ok cs =>
                simp only [hcm] at ha
                cases ha
                exact ⟨hP.children _ _ hel, addToComments_all hP hc hcm hch⟩
            · cases ha
              exact ⟨hel, hch⟩
    intro e he
    rw [jAlls_append, jAlls_cons] at he
    rcases List.mem_append.mp he with he | he
    · exact hall e (List.mem_append_left _ he)
    · rcases List.mem_cons.mp he with rfl | he
      · exact hres.1
      · rcases List.mem_append.mp he with he | he
        · exact hres.2 e he
        · exact hall e (List.mem_append_right _ (List.mem_cons_of_mem _ (List.mem_append_right _ he)))

end Verif
