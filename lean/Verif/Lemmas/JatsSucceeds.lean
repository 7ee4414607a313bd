/-
Lemmas for C80: changing elements of a tree keeps what holds for all lists of siblings.
-/
import Verif.Lemmas.JatsFix

namespace Verif
open Spec

/-- The identities of elements and all elements inside. -/
def jIds (cs : List JNode) : List Nat := (jAlls cs).map (·.id)

theorem jAll_eq (n : JNode) : jAll n = n :: jAlls n.children := by cases n; rfl

theorem jAlls_cons_eq (n : JNode) (ns : List JNode) : jAlls (n :: ns) = n :: (jAlls n.children ++ jAlls ns) := by
  rw [jAlls, jAll_eq]; rfl

theorem mem_jAlls_self {n : JNode} {ns : List JNode} (h : n ∈ ns) : n ∈ jAlls ns := by
  induction ns with
  | nil => cases h
  | cons m ns ih =>
    rw [jAlls_cons_eq]
    rcases List.mem_cons.1 h with rfl | h
    · exact List.mem_cons_self
    · exact List.mem_cons_of_mem _ (List.mem_append_right _ (ih h))

theorem jIds_append (l r : List JNode) : jIds (l ++ r) = jIds l ++ jIds r := by unfold jIds; rw [jAlls_append, List.map_append]

theorem jIds_cons (n : JNode) (ns : List JNode) : jIds (n :: ns) = n.id :: (jIds n.children ++ jIds ns) := by
  unfold jIds; rw [jAlls_cons_eq, List.map_cons, List.map_append]

/-- The same element on the outside: only its text and what is inside may have changed, and the text is still there. -/
structure Similar (n n' : JNode) : Prop where
  id : n'.id = n.id
  tag : n'.tag = n.tag
  attrs : n'.attrs = n.attrs
  tail : n'.tail = n.tail
  text : n.text.isSome = true → n'.text.isSome = true

/-- Similar elements one by one. -/
def Similars : List JNode → List JNode → Prop
  | [], [] => True
  | n :: ns, n' :: ns' => Similar n n' ∧ Similars ns ns'
  | _, _ => False

theorem Similar.refl (n : JNode) : Similar n n := ⟨rfl, rfl, rfl, rfl, fun h => h⟩

/-- What holds for the text and the children of an element holds for elements inside as well. -/
def Lists (L : Option Str → List JNode → Prop) (t : Option Str) (cs : List JNode) : Prop :=
  L t cs ∧ ∀ m ∈ jAlls cs, L m.text m.children

theorem lists_cons_iff (L : Option Str → List JNode → Prop) (n : JNode) (ns : List JNode) :
    (∀ m ∈ jAlls (n :: ns), L m.text m.children) ↔ Lists L n.text n.children ∧ ∀ m ∈ jAlls ns, L m.text m.children := by
  rw [jAlls_cons_eq]
  constructor
  · intro h
    exact ⟨⟨h n List.mem_cons_self, fun m hm => h m (List.mem_cons_of_mem _ (List.mem_append_left _ hm))⟩,
      fun m hm => h m (List.mem_cons_of_mem _ (List.mem_append_right _ hm))⟩
  · intro ⟨⟨h1, h2⟩, h3⟩ m hm
    rcases List.mem_cons.1 hm with rfl | hm
    · exact h1
    · rcases List.mem_append.1 hm with hm | hm
      · exact h2 m hm
      · exact h3 m hm

theorem splitAtId_none_ne {i : Nat} {cs : List JNode} (h : splitAtId i cs = none) : ∀ e ∈ cs, e.id ≠ i := by
  induction cs with
  | nil => intro e he; cases he
  | cons n ns ih =>
    unfold splitAtId at h
    split at h
    · cases h
    · next hn =>
      split at h
      · next hs =>
        intro e he
        rcases List.mem_cons.1 he with rfl | he
        · exact hn
        · exact ih hs e he
      · cases h

/-- From one element to the whole tree: if changing an element where it is works and leads from lists with `L` to lists with `L'`,
then it works in the whole tree. -/
theorem editAt_lists {L L' : Option Str → List JNode → Prop} {U : List Nat → Prop} (i : Nat) (f : JOp)
    (hU : ∀ a b, a.Sublist b → U b → U a)
    (hsim : ∀ t cs cs', Similars cs cs' → L' t cs → L' t cs')
    (hother : ∀ t cs, (∀ e ∈ cs, e.id ≠ i) → L t cs → L' t cs)
    (hf : ∀ c : JCtx, c.el.id = i → U (jIds (c.left ++ c.el :: c.right)) → Lists L c.text (c.left ++ c.el :: c.right) →
      ∃ t' cs' b, f c = .ok (t', cs', b) ∧ Lists L' t' cs' ∧ (c.text.isSome = true → t'.isSome = true)) (n : JNode) :
    U (jIds n.children) → Lists L n.text n.children →
      ∃ n' b, editAt i f n = .ok (n', b) ∧ Lists L' n'.text n'.children ∧ Similar n n' := by
  refine JNode.rec
    (motive_1 := fun n => U (jIds n.children) → Lists L n.text n.children →
      ∃ n' b, editAt i f n = .ok (n', b) ∧ Lists L' n'.text n'.children ∧ Similar n n')
    (motive_2 := fun ns => U (jIds ns) → (∀ m ∈ jAlls ns, L m.text m.children) →
      ∃ ns' b, editAts i f ns = .ok (ns', b) ∧ (∀ m ∈ jAlls ns', L' m.text m.children) ∧ Similars ns ns') ?_ ?_ ?_ n
  · intro j g a t cs tl ih hu hl
    unfold editAt
    cases hs : splitAtId i cs with
    | some p =>
      obtain ⟨l, e, r⟩ := p
      obtain ⟨h1, h2⟩ := splitAtId_spec hs
      have hu' : U (jIds cs) := hu
      have hl' : Lists L t cs := hl
      rw [h1] at hu' hl'
      obtain ⟨t', cs', b, e1, e2, e3⟩ := hf ⟨t, l, e, r⟩ h2 hu' hl'
      simp only [e1]
      exact ⟨_, b, rfl, e2, rfl, rfl, rfl, rfl, e3⟩
    | none =>
      obtain ⟨cs', b, e1, e2, e3⟩ := ih hu hl.2
      simp only [e1]
      exact ⟨_, b, rfl, ⟨hsim t cs cs' e3 (hother t cs (splitAtId_none_ne hs) hl.1), e2⟩, rfl, rfl, rfl, rfl, fun h => h⟩
  · intro _ _
    exact ⟨[], false, rfl, (fun m hm => by cases hm), trivial⟩
  · intro n ns ih1 ih2 hu hl
    obtain ⟨hl1, hl2⟩ := (lists_cons_iff L n ns).1 hl
    rw [jIds_cons] at hu
    obtain ⟨n', b1, e1, e2, e3⟩ := ih1
      (hU _ _ ((List.sublist_append_left _ _).trans (List.sublist_cons_self _ _)) hu) hl1
    obtain ⟨ns', b2, g1, g2, g3⟩ := ih2
      (hU _ _ ((List.sublist_append_right _ _).trans (List.sublist_cons_self _ _)) hu) hl2
    unfold editAts
    simp only [e1, g1]
    exact ⟨_, _, rfl, (lists_cons_iff L' n' ns').2 ⟨e2, g2⟩, e3, g3⟩

/-- The identities of the elements of a tree after a change. -/
theorem editAt_ids {R : List Nat → List Nat → Prop} (i : Nat) (f : JOp)
    (hrefl : R [] []) (happ : ∀ x a b c d, R a b → R c d → R (x :: (a ++ c)) (x :: (b ++ d)))
    (hf : ∀ c : JCtx, c.el.id = i → ∀ t' cs' b, f c = .ok (t', cs', b) → R (jIds cs') (jIds (c.left ++ c.el :: c.right))) (n : JNode) :
    ∀ n' b, editAt i f n = .ok (n', b) → R (jIds n'.children) (jIds n.children) ∧ n'.id = n.id := by
  refine JNode.rec
    (motive_1 := fun n => ∀ n' b, editAt i f n = .ok (n', b) → R (jIds n'.children) (jIds n.children) ∧ n'.id = n.id)
    (motive_2 := fun ns => ∀ ns' b, editAts i f ns = .ok (ns', b) → R (jIds ns') (jIds ns)) ?_ ?_ ?_ n
  · intro j g a t cs tl ih n' b h
    unfold editAt at h
    cases hs : splitAtId i cs with
    | some p =>
      obtain ⟨l, e, r⟩ := p
      obtain ⟨h1, h2⟩ := splitAtId_spec hs
      simp only [hs] at h
      split at h
      · cases h
      · next t' cs' b' hc =>
        cases h
        refine ⟨?_, rfl⟩
        have := hf ⟨t, l, e, r⟩ h2 t' cs' b hc
        show R (jIds cs') (jIds cs)
        rw [h1]
        exact this
    | none =>
      simp only [hs] at h
      split at h
      · cases h
      · next cs' b' hc =>
        cases h
        exact ⟨ih cs' b hc, rfl⟩
  · intro ns' b h
    cases h
    exact hrefl
  · intro n ns ih1 ih2 ns' b h
    unfold editAts at h
    split at h
    · cases h
    · next n1 b1 h1 =>
      split at h
      · cases h
      · next ns2 b2 h2 =>
        cases h
        obtain ⟨x1, x2⟩ := ih1 n1 b1 h1
        rw [jIds_cons, jIds_cons, x2]
        exact happ _ _ _ _ _ x1 (ih2 ns2 b2 h2)

/-! ### Lists of siblings -/

/-- A property which depends on the outside of an element only. -/
def Shallow (P : JNode → Prop) : Prop := ∀ n n' : JNode, n'.id = n.id → n'.tag = n.tag → n'.attrs = n.attrs → P n → P n'

/-- Going through siblings with the element before (`q`) and the text before (`t`): elements with `D` do not follow each other without text
between them, and there is text before elements with `E`. -/
def Walk (D E : JNode → Prop) : Option JNode → Option Str → List JNode → Prop
  | _, _, [] => True
  | q, t, e :: r => (D e → ∀ p, q = some p → D p → truthy p.tail = true) ∧ (E e → t.isSome = true) ∧ Walk D E (some e) e.tail r

theorem walk_append {D E : JNode → Prop} (l r : List JNode) : ∀ (q : Option JNode) (t : Option Str),
    Walk D E q t (l ++ r) ↔ Walk D E q t l ∧ Walk D E (l.getLast?.or q) (previousText t l) r := by
  induction l with
  | nil => intro q t; simp [Walk, previousText]
  | cons e l ih =>
    intro q t
    rw [List.cons_append, Walk, Walk, ih]
    have h1 : ((e :: l).getLast?.or q) = l.getLast?.or (some e) := by
      cases l with
      | nil => rfl
      | cons x l => rw [List.getLast?_cons_cons]; cases h : (x :: l).getLast? with
        | none => simp at h
        | some y => rfl
    have h2 : previousText t (e :: l) = previousText e.tail l := by
      unfold previousText
      cases l with
      | nil => rfl
      | cons x l => rw [List.getLast?_cons_cons]; cases h : (x :: l).getLast? with
        | none => simp at h
        | some y => rfl
    rw [h1, h2]
    simp only [and_assoc]

theorem walk_mono {D E : JNode → Prop} {q q' : Option JNode} {t t' : Option Str} {r : List JNode}
    (hq : ∀ e ∈ r.head?, D e → ∀ p', q' = some p' → D p' → truthy p'.tail = true)
    (ht : ∀ e ∈ r.head?, E e → t'.isSome = true) (h : Walk D E q t r) : Walk D E q' t' r := by
  cases r with
  | nil => trivial
  | cons e r => exact ⟨hq e rfl, ht e rfl, h.2.2⟩

theorem walk_E {D E E' : JNode → Prop} {r : List JNode} : ∀ {q : Option JNode} {t : Option Str}, (∀ e ∈ r, E' e → E e) →
    Walk D E q t r → Walk D E' q t r := by
  induction r with
  | nil => intro q t _ _; trivial
  | cons e r ih =>
    intro q t hE h
    exact ⟨h.1, fun he => h.2.1 (hE e List.mem_cons_self he), ih (fun e he => hE e (List.mem_cons_of_mem _ he)) h.2.2⟩

theorem walk_similar {D E : JNode → Prop} (hD : Shallow D) (hE : Shallow E) : ∀ {cs cs' : List JNode} {q q' : Option JNode} {t : Option Str},
    Similars cs cs' → (∀ p', q' = some p' → ∃ p, q = some p ∧ Similar p p') → Walk D E q t cs → Walk D E q' t cs'
  | [], [], _, _, _, _, _, _ => trivial
  | n :: ns, n' :: ns', q, q', t, hs, hq, h => by
    obtain ⟨hs1, hs2⟩ := hs
    refine ⟨fun hd p' hp' hd' => ?_, fun he => h.2.1 (hE n' n hs1.id.symm hs1.tag.symm hs1.attrs.symm he), ?_⟩
    · obtain ⟨p, e1, e2⟩ := hq p' hp'
      rw [e2.tail]
      exact h.1 (hD n' n hs1.id.symm hs1.tag.symm hs1.attrs.symm hd) p e1 (hD p' p e2.id.symm e2.tag.symm e2.attrs.symm hd')
    · rw [hs1.tail]
      exact walk_similar hD hE hs2 (fun p' hp' => ⟨n, rfl, by cases hp'; exact hs1⟩) h.2.2
  | [], _ :: _, _, _, _, hs, _, _ => absurd hs (fun h => h)
  | _ :: _, [], _, _, _, hs, _, _ => absurd hs (fun h => h)

/-- What is kept for all lists of siblings: elements with `D` have text and are not next to each other, those with `E` have text before them,
and all have `K`. -/
def GoodList (D E K : JNode → Prop) (t : Option Str) (cs : List JNode) : Prop :=
  (∀ e ∈ cs, K e ∧ (D e → e.text.isSome = true)) ∧ Walk D E none t cs

theorem goodList_similar {D E K : JNode → Prop} (hD : Shallow D) (hE : Shallow E) (hK : Shallow K) (t : Option Str) (cs cs' : List JNode)
    (hs : Similars cs cs') (h : GoodList D E K t cs) : GoodList D E K t cs' := by
  refine ⟨?_, walk_similar hD hE hs (fun p' hp' => by cases hp') h.2⟩
  have h1 := h.1
  clear h
  induction cs generalizing cs' with
  | nil =>
    cases cs' with
    | nil => intro e he; cases he
    | cons => exact absurd hs (fun h => h)
  | cons n ns ih =>
    cases cs' with
    | nil => exact absurd hs (fun h => h)
    | cons n' ns' =>
      obtain ⟨hs1, hs2⟩ := hs
      intro e he
      rcases List.mem_cons.1 he with rfl | he
      · obtain ⟨a, b⟩ := h1 n List.mem_cons_self
        exact ⟨hK n e hs1.id hs1.tag hs1.attrs a, fun hd => hs1.text (b (hD e n hs1.id.symm hs1.tag.symm hs1.attrs.symm hd))⟩
      · exact ih _ hs2 (fun e he => h1 e (List.mem_cons_of_mem _ he)) e he

/-! ### The text before an element -/

theorem setPreviousText_some (t : Option Str) (l : List JNode) (s : Str) (h : t.isSome = true) :
    (setPreviousText t l (some s)).1.isSome = true := by
  unfold setPreviousText
  split
  · exact h
  · rfl

theorem setPreviousText_previous (t : Option Str) (l : List JNode) (s : Option Str) :
    previousText (setPreviousText t l s).1 (setPreviousText t l s).2 = s := by
  unfold setPreviousText previousText
  cases h : l.getLast? with
  | none => simp [h]
  | some e => simp

theorem setPreviousText_last (t : Option Str) (l : List JNode) (s : Option Str) :
    (setPreviousText t l s).2.getLast? = l.getLast?.map (fun e => e.setTail s) := by
  unfold setPreviousText
  cases h : l.getLast? with
  | none => simp [h]
  | some e => simp

theorem setPreviousText_mem (t : Option Str) (l : List JNode) (s : Option Str) (e : JNode)
    (h : e ∈ (setPreviousText t l s).2) : ∃ e0 ∈ l, e.id = e0.id ∧ e.tag = e0.tag ∧ e.attrs = e0.attrs ∧ e.text = e0.text ∧
      e.children = e0.children := by
  unfold setPreviousText at h
  cases hl : l.getLast? with
  | none =>
    rw [hl] at h
    exact ⟨e, h, rfl, rfl, rfl, rfl, rfl⟩
  | some x =>
    rw [hl] at h
    rcases List.mem_append.1 h with h | h
    · exact ⟨e, List.dropLast_subset _ h, rfl, rfl, rfl, rfl, rfl⟩
    · obtain rfl := List.mem_singleton.1 h
      exact ⟨x, List.mem_of_getLast? hl, by cases x; exact ⟨rfl, rfl, rfl, rfl, rfl⟩⟩

theorem setPreviousText_ids (t : Option Str) (l : List JNode) (s : Option Str) : jIds (setPreviousText t l s).2 = jIds l := by
  unfold setPreviousText
  cases hl : l.getLast? with
  | none => rfl
  | some x =>
    have hne : l ≠ [] := by intro h; rw [h] at hl; cases hl
    have : l = l.dropLast ++ [x] := by
      have := List.dropLast_concat_getLast hne
      rw [List.getLast?_eq_some_getLast hne] at hl
      rw [← Option.some.inj hl]
      exact this.symm
    show jIds (l.dropLast ++ [x.setTail s]) = jIds l
    conv => rhs; rw [this]
    rw [jIds_append, jIds_append, jIds_cons, jIds_cons]
    cases x
    rfl

theorem setPreviousText_walk {D E : JNode → Prop} (hD : Shallow D) (hE : Shallow E) (t : Option Str) (l : List JNode) (s : Option Str)
    (h : Walk D E none t l) : Walk D E none (setPreviousText t l s).1 (setPreviousText t l s).2 := by
  unfold setPreviousText
  cases hl : l.getLast? with
  | none =>
    have : l = [] := List.getLast?_eq_none_iff.1 hl
    subst this
    trivial
  | some x =>
    have hne : l ≠ [] := by intro h; rw [h] at hl; cases hl
    have hx : l = l.dropLast ++ [x] := by
      have := List.dropLast_concat_getLast hne
      rw [List.getLast?_eq_some_getLast hne] at hl
      rw [← Option.some.inj hl]
      exact this.symm
    rw [hx, walk_append] at h
    show Walk D E none t (l.dropLast ++ [x.setTail s])
    rw [walk_append]
    refine ⟨h.1, ?_⟩
    have h2 := h.2
    have e1 : x.id = (x.setTail s).id := by cases x; rfl
    have e2 : x.tag = (x.setTail s).tag := by cases x; rfl
    have e3 : x.attrs = (x.setTail s).attrs := by cases x; rfl
    exact ⟨fun hd => h2.1 (hD _ _ e1 e2 e3 hd), fun he => h2.2.1 (hE _ _ e1 e2 e3 he), trivial⟩

theorem jAlls_trans {m e : JNode} {ns : List JNode} (hm : m ∈ jAlls ns) (he : e ∈ m.children) : e ∈ jAlls ns := by
  have key : ∀ n : JNode, ∀ m ∈ jAlls n.children, ∀ e ∈ m.children, e ∈ jAlls n.children := by
    intro n
    refine JNode.rec (motive_1 := fun n => ∀ m ∈ jAlls n.children, ∀ e ∈ m.children, e ∈ jAlls n.children)
      (motive_2 := fun ns => ∀ m ∈ jAlls ns, ∀ e ∈ m.children, e ∈ jAlls ns) ?_ ?_ ?_ n
    · intro j g a t cs tl ih
      exact ih
    · intro m hm
      cases hm
    · intro n ns ih1 ih2 m hm e he
      rw [jAlls_cons_eq] at hm ⊢
      rcases List.mem_cons.1 hm with rfl | hm
      · exact List.mem_cons_of_mem _ (List.mem_append_left _ (mem_jAlls_self he))
      · rcases List.mem_append.1 hm with hm | hm
        · exact List.mem_cons_of_mem _ (List.mem_append_left _ (ih1 m hm e he))
        · exact List.mem_cons_of_mem _ (List.mem_append_right _ (ih2 m hm e he))
  exact key (.mk 0 [] [] none ns none) m hm e he

theorem jAlls_mem_of_children {l l' : List JNode} {L : Option Str → List JNode → Prop}
    (hl : ∀ e ∈ l', ∃ e0 ∈ l, e.text = e0.text ∧ e.children = e0.children) (h : ∀ m ∈ jAlls l, L m.text m.children) :
    ∀ m ∈ jAlls l', L m.text m.children := by
  induction l' with
  | nil => intro m hm; cases hm
  | cons e l' ih =>
    rw [lists_cons_iff]
    refine ⟨?_, ih (fun e he => hl e (List.mem_cons_of_mem _ he))⟩
    obtain ⟨e0, h0, h1, h2⟩ := hl e List.mem_cons_self
    rw [h1, h2]
    refine ⟨h e0 (mem_jAlls_self h0), fun m hm => h m ?_⟩
    obtain ⟨a, b, rfl⟩ := List.append_of_mem h0
    rw [jAlls_append, jAlls_cons_eq]
    simp [hm]

/-! ### The changes -/

theorem truthy_append_left {s : Option Str} {x : Str} (h : truthy s = true) : truthy (some (orEmpty s ++ x)) = true := by
  cases s with
  | none => cases h
  | some y => cases y with
    | nil => cases h
    | cons => rfl

theorem truthy_append_right {s : Option Str} {x : Str} (h : truthy s = true) : truthy (some (x ++ orEmpty s)) = true := by
  cases s with
  | none => cases h
  | some y => cases y with
    | nil => cases h
    | cons => cases x <;> rfl

theorem goodList_split {D E K : JNode → Prop} {t : Option Str} {l r : List JNode} {el : JNode} (h : GoodList D E K t (l ++ el :: r)) :
    (∀ e ∈ l, K e ∧ (D e → e.text.isSome = true)) ∧ (K el ∧ (D el → el.text.isSome = true)) ∧
    (∀ e ∈ r, K e ∧ (D e → e.text.isSome = true)) ∧ Walk D E none t l ∧
    (D el → ∀ p, l.getLast? = some p → D p → truthy p.tail = true) ∧ (E el → (previousText t l).isSome = true) ∧
    Walk D E (some el) el.tail r := by
  obtain ⟨h1, h2⟩ := h
  rw [walk_append] at h2
  obtain ⟨w1, w2, w3, w4⟩ := h2
  refine ⟨fun e he => h1 e (by simp [he]), h1 el (by simp), fun e he => h1 e (by simp [he]), w1, ?_, w3, w4⟩
  intro hd p hp
  exact w2 hd p (by rw [hp]; rfl)

theorem goodList_join {D E K : JNode → Prop} {t : Option Str} {l r : List JNode} {el : JNode}
    (h1 : ∀ e ∈ l, K e ∧ (D e → e.text.isSome = true)) (h2 : K el ∧ (D el → el.text.isSome = true))
    (h3 : ∀ e ∈ r, K e ∧ (D e → e.text.isSome = true)) (h4 : Walk D E none t l)
    (h5 : D el → ∀ p, l.getLast? = some p → D p → truthy p.tail = true) (h6 : E el → (previousText t l).isSome = true)
    (h7 : Walk D E (some el) el.tail r) : GoodList D E K t (l ++ el :: r) := by
  refine ⟨fun e he => ?_, ?_⟩
  · rcases List.mem_append.1 he with he | he
    · exact h1 e he
    · rcases List.mem_cons.1 he with rfl | he
      · exact h2
      · exact h3 e he
  · rw [walk_append]
    refine ⟨h4, fun hd p hp => h5 hd p ?_, h6, h7⟩
    cases hl : l.getLast? with
    | none => rw [hl] at hp; cases hp
    | some x => rw [hl] at hp; exact hp

theorem jAlls_split {L : Option Str → List JNode → Prop} (l r : List JNode) (el : JNode) :
    (∀ m ∈ jAlls (l ++ el :: r), L m.text m.children) ↔
      (∀ m ∈ jAlls l, L m.text m.children) ∧ Lists L el.text el.children ∧ ∀ m ∈ jAlls r, L m.text m.children := by
  rw [← lists_cons_iff, jAlls_append]
  constructor
  · intro h
    exact ⟨fun m hm => h m (List.mem_append_left _ hm), fun m hm => h m (List.mem_append_right _ hm)⟩
  · intro ⟨h1, h2⟩ m hm
    rcases List.mem_append.1 hm with hm | hm
    · exact h1 m hm
    · exact h2 m hm

theorem walk_q {D E : JNode → Prop} {q q' : Option JNode} {t t' : Option Str} {r : List JNode}
    (hq : ∀ p', q' = some p' → D p' → ∃ p, q = some p ∧ D p ∧ (truthy p.tail = true → truthy p'.tail = true))
    (ht : t.isSome = true → t'.isSome = true) (h : Walk D E q t r) : Walk D E q' t' r := by
  cases r with
  | nil => trivial
  | cons e r =>
    refine ⟨fun hd p' hp' hd' => ?_, fun he => ht (h.2.1 he), h.2.2⟩
    obtain ⟨p, e1, e2, e3⟩ := hq p' hp' hd'
    exact e3 (h.1 hd p e1 e2)

/-- Putting text in front of an element, changing the element itself. -/
theorem lists_previous {D E E' K : JNode → Prop} (hD : Shallow D) (hE' : Shallow E') (hK : Shallow K) {t : Option Str} {l r : List JNode}
    {el el' : JNode} {x : Str} (hE : ∀ m ∈ jAlls l ++ (jAlls el.children ++ jAlls r), E' m → E m)
    (h : Lists (GoodList D E K) t (l ++ el :: r))
    (hel : el'.id = el.id ∧ el'.tag = el.tag ∧ el'.attrs = el.attrs ∧ (D el → el'.text.isSome = true) ∧
      (truthy el.tail = true → truthy el'.tail = true) ∧ (el.tail.isSome = true → el'.tail.isSome = true))
    (hin : (∀ m ∈ jAlls el.children, E' m → E m) → Lists (GoodList D E K) el.text el.children → Lists (GoodList D E' K) el'.text el'.children) :
    Lists (GoodList D E' K) (addToPrevious t l x).1 ((addToPrevious t l x).2 ++ el' :: r) := by
  obtain ⟨h1, h2⟩ := h
  obtain ⟨a1, a2, a3, a4, a5, a6, a7⟩ := goodList_split h1
  obtain ⟨b1, b2, b3⟩ := (jAlls_split _ _ _).1 h2
  obtain ⟨c1, c2, c3, c4, c5, c6⟩ := hel
  have hsub : ∀ m ∈ jAlls l, E' m → E m := fun m hm => hE m (List.mem_append_left _ hm)
  have hsubr : ∀ m ∈ jAlls r, E' m → E m := fun m hm => hE m (List.mem_append_right _ (List.mem_append_right _ hm))
  have good : ∀ (ns : List JNode), (∀ m ∈ jAlls ns, E' m → E m) → (∀ m ∈ jAlls ns, GoodList D E K m.text m.children) →
      ∀ m ∈ jAlls ns, GoodList D E' K m.text m.children := by
    intro ns he hg m hm
    refine ⟨(hg m hm).1, walk_E (fun e he' => he e ?_) (hg m hm).2⟩
    exact jAlls_trans hm he'
  have hmem := setPreviousText_mem t l (some (orEmpty (previousText t l) ++ x))
  refine ⟨goodList_join ?_ ⟨hK _ _ c1 c2 c3 a2.1, fun hd => c4 (hD _ _ c1.symm c2.symm c3.symm hd)⟩ a3 ?_ ?_ ?_ ?_, ?_⟩
  · intro e he
    obtain ⟨e0, e1, e2, e3, e4, e5, _⟩ := hmem e he
    obtain ⟨k1, k2⟩ := a1 e0 e1
    exact ⟨hK _ _ e2 e3 e4 k1, fun hd => by rw [e5]; exact k2 (hD _ _ e2.symm e3.symm e4.symm hd)⟩
  · exact setPreviousText_walk hD hE' _ _ _ (walk_E (fun e he => hsub e (mem_jAlls_self he)) a4)
  · intro hd p hp hdp
    unfold addToPrevious at hp
    rw [setPreviousText_last] at hp
    obtain ⟨p0, hp0, rfl⟩ := Option.map_eq_some_iff.1 hp
    have hpt : previousText t l = p0.tail := by unfold previousText; rw [hp0]
    rw [tail_setTail, hpt]
    refine truthy_append_left (a5 (hD _ _ c1.symm c2.symm c3.symm hd) p0 hp0 (hD _ p0 ?_ ?_ ?_ hdp)) <;> (cases p0; rfl)
  · intro _
    unfold addToPrevious
    rw [setPreviousText_previous]
    rfl
  · refine walk_q ?_ c6 (walk_E (fun e he => hsubr e (mem_jAlls_self he)) a7)
    intro p' hp' hd'
    obtain rfl := Option.some.inj hp'
    exact ⟨el, rfl, hD _ _ c1.symm c2.symm c3.symm hd', c5⟩
  · rw [jAlls_split]
    refine ⟨?_, hin (fun m hm => hE m (List.mem_append_right _ (List.mem_append_left _ hm))) b2, good r hsubr b3⟩
    exact jAlls_mem_of_children (fun e he => by obtain ⟨e0, e1, _, _, _, e5, e6⟩ := hmem e he; exact ⟨e0, e1, e5, e6⟩) (good l hsub b1)

theorem lists_E {D E E' K : JNode → Prop} {t : Option Str} {cs : List JNode} (hE : ∀ m ∈ jAlls cs, E' m → E m)
    (h : Lists (GoodList D E K) t cs) : Lists (GoodList D E' K) t cs :=
  ⟨⟨h.1.1, walk_E (fun e he => hE e (mem_jAlls_self he)) h.1.2⟩,
    fun m hm => ⟨(h.2 m hm).1, walk_E (fun e he => hE e (jAlls_trans hm he)) (h.2 m hm).2⟩⟩

/-- The first list of `Lists` may have any text if nothing needs text before it. -/
theorem lists_text {D E K : JNode → Prop} {t t' : Option Str} {cs : List JNode} (ht : t.isSome = true → t'.isSome = true)
    (h : Lists (GoodList D E K) t cs) : Lists (GoodList D E K) t' cs :=
  ⟨⟨h.1.1, walk_q (fun p' hp' => by cases hp') ht h.1.2⟩, h.2⟩

theorem changeOp_lists {D E E' K : JNode → Prop} (hD : Shallow D) (hE' : Shallow E') (hK : Shallow K) (hED : ∀ m, E' m → D m)
    {find : Str → Except Err (Option (Nat × Nat))} (hfind : ∀ s, ∃ o, find s = .ok o) (c : JCtx)
    (hel : D c.el ∨ ∀ s, find s ≠ .ok none)
    (hE : ∀ m ∈ jAlls c.left ++ (jAlls c.el.children ++ jAlls c.right), E' m → E m)
    (h : Lists (GoodList D E K) c.text (c.left ++ c.el :: c.right)) :
    ∃ t' cs' b, changeOp find c = .ok (t', cs', b) ∧ Lists (GoodList D E' K) t' cs' ∧ (c.text.isSome = true → t'.isSome = true) := by
  unfold changeOp
  cases ht : c.el.text with
  | none =>
    refine ⟨_, _, _, rfl, lists_E (fun m hm hm' => ?_) h, fun h => h⟩
    rw [jAlls_append, jAlls_cons_eq] at hm
    rcases List.mem_append.1 hm with hm | hm
    · exact hE m (List.mem_append_left _ hm) hm'
    · rcases List.mem_cons.1 hm with rfl | hm
      · have := (goodList_split h.1).2.1.2 (hED _ hm')
        rw [ht] at this
        cases this
      · exact hE m (List.mem_append_right _ hm) hm'
  | some text =>
    obtain ⟨o, ho⟩ := hfind text
    simp only [ho]
    cases o with
    | none =>
      have hd : D c.el := hel.resolve_right (fun hn => hn text ho)
      refine ⟨_, _, _, rfl, ?_, fun hs => setPreviousText_some _ _ _ hs⟩
      -- first change the text before the element, then leave the element out
      have hp := lists_previous (x := text) hD hE' hK hE h (el' := c.el)
        ⟨rfl, rfl, rfl, fun _ => by rw [ht]; rfl, fun h => h, fun h => h⟩ (fun he hl => lists_E he hl)
      obtain ⟨a1, a2, a3, a4, a5, a6, a7⟩ := goodList_split hp.1
      obtain ⟨b1, b2, b3⟩ := (jAlls_split _ _ _).1 hp.2
      refine ⟨⟨fun e he => (List.mem_append.1 he).elim (a1 e) (a3 e), ?_⟩, ?_⟩
      · rw [walk_append]
        refine ⟨a4, ?_⟩
        cases hr : c.right with
        | nil => trivial
        | cons e r =>
          rw [hr] at a7
          refine ⟨fun hde p hp' hdp => ?_, fun _ => ?_, a7.2.2⟩
          · refine a5 hd p ?_ hdp
            cases hl : (addToPrevious c.text c.left text).2.getLast? with
            | none => rw [hl] at hp'; cases hp'
            | some x => rw [hl] at hp'; exact hp'
          · unfold addToPrevious
            rw [setPreviousText_previous]
            rfl
      · intro m hm
        rw [jAlls_append] at hm
        rcases List.mem_append.1 hm with hm | hm
        · exact b1 m hm
        · exact b3 m hm
    | some p =>
      obtain ⟨start, stop⟩ := p
      refine ⟨_, _, _, rfl, ?_, fun hs => setPreviousText_some _ _ _ hs⟩
      refine lists_previous hD hE' hK hE h ⟨by cases c.el; rfl, by cases c.el; rfl, by cases c.el; rfl,
        fun _ => by cases c.el; rfl, fun hs => ?_, fun _ => by cases c.el; rfl⟩ (fun he hl => ?_)
      · unfold addToTailPrefix
        rw [tail_setTail, tail_setText]
        exact truthy_append_right hs
      · have e1 : (addToTailPrefix (c.el.setText (some (sliceStr text start stop))) (text.drop stop)).children = c.el.children := by
          cases c.el; rfl
        have e2 : (addToTailPrefix (c.el.setText (some (sliceStr text start stop))) (text.drop stop)).text =
            some (sliceStr text start stop) := by
          cases c.el; rfl
        rw [e1, e2]
        exact lists_text (fun _ => rfl) (lists_E he hl)

/-- The list of siblings around an element. -/
def CtxGood (D E K : JNode → Prop) (c : JCtx) : Prop := Lists (GoodList D E K) c.text (c.left ++ c.el :: c.right)

theorem moveFirstOut_good {D E K : JNode → Prop} (hD : Shallow D) (hE : Shallow E) (hK : Shallow K) (c : JCtx) (h : CtxGood D E K c) :
    CtxGood D E K (moveFirstOut c) ∧ (c.text.isSome = true → (moveFirstOut c).text.isSome = true) := by
  unfold moveFirstOut
  split
  · refine ⟨?_, fun hs => setPreviousText_some _ _ _ hs⟩
    refine lists_previous hD hE hK (fun _ _ h => h) h ⟨by cases c.el; rfl, by cases c.el; rfl, by cases c.el; rfl,
        fun _ => by cases c.el; rfl, fun hs => by rw [tail_setText]; exact hs, fun hs => by rw [tail_setText]; exact hs⟩ (fun he hl => ?_)
    rw [children_setText, text_setText]
    exact lists_text (fun _ => rfl) hl
  · exact ⟨h, fun h => h⟩

theorem ctxGood_el {D E K : JNode → Prop} (hD : Shallow D) (hE : Shallow E) (hK : Shallow K) {c : JCtx} {el' : JNode} (h : CtxGood D E K c)
    (hel : el'.id = c.el.id ∧ el'.tag = c.el.tag ∧ el'.attrs = c.el.attrs ∧ (D c.el → el'.text.isSome = true) ∧
      (truthy c.el.tail = true → truthy el'.tail = true) ∧ (c.el.tail.isSome = true → el'.tail.isSome = true))
    (hin : Lists (GoodList D E K) c.el.text c.el.children → Lists (GoodList D E K) el'.text el'.children) :
    CtxGood D E K { c with el := el' } := by
  obtain ⟨a1, a2, a3, a4, a5, a6, a7⟩ := goodList_split h.1
  obtain ⟨b1, b2, b3⟩ := (jAlls_split _ _ _).1 h.2
  obtain ⟨c1, c2, c3, c4, c5, c6⟩ := hel
  refine ⟨goodList_join a1 ⟨hK _ _ c1 c2 c3 a2.1, fun hd => c4 (hD _ _ c1.symm c2.symm c3.symm hd)⟩ a3 a4
    (fun hd => a5 (hD _ _ c1.symm c2.symm c3.symm hd)) (fun he => a6 (hE _ _ c1.symm c2.symm c3.symm he)) ?_, ?_⟩
  · refine walk_q ?_ c6 a7
    intro p' hp' hd'
    obtain rfl := Option.some.inj hp'
    exact ⟨c.el, rfl, hD _ _ c1.symm c2.symm c3.symm hd', c5⟩
  · exact (jAlls_split _ _ _).2 ⟨b1, hin b2, b3⟩

theorem moveLastOut_good {D E K : JNode → Prop} (hD : Shallow D) (hE : Shallow E) (hK : Shallow K) (c : JCtx) (k : Nat) (h : CtxGood D E K c) :
    CtxGood D E K { c with el := moveLastOut c.el k } := by
  have key : ∀ el : JNode, (moveLastOut el k).id = el.id ∧ (moveLastOut el k).tag = el.tag ∧ (moveLastOut el k).attrs = el.attrs ∧
      (moveLastOut el k).text = el.text ∧ (truthy el.tail = true → truthy (moveLastOut el k).tail = true) ∧
      (el.tail.isSome = true → (moveLastOut el k).tail.isSome = true) ∧
      ∀ t, ∃ s, (moveLastOut el k).children = el.children ∨ (moveLastOut el k).children = (setPreviousText t el.children s).2 ∧
        el.children ≠ [] := by
    intro el
    unfold moveLastOut
    cases hl : el.children.getLast? with
    | none => exact ⟨rfl, rfl, rfl, rfl, fun h => h, fun h => h, fun _ => ⟨none, .inl rfl⟩⟩
    | some last =>
      simp only
      split
      · refine ⟨by cases el; rfl, by cases el; rfl, by cases el; rfl, by cases el; rfl, fun hs => ?_, fun _ => by cases el; rfl,
          fun t => ⟨some ((orEmpty last.tail).take k), .inr ⟨?_, fun hn => by rw [hn] at hl; cases hl⟩⟩⟩
        · unfold addToTailPrefix
          rw [tail_setTail, tail_setChildren]
          exact truthy_append_right hs
        · unfold setPreviousText
          rw [hl]
          cases el
          rfl
      · exact ⟨rfl, rfl, rfl, rfl, fun h => h, fun h => h, fun _ => ⟨none, .inl rfl⟩⟩
  obtain ⟨k1, k2, k3, k4, k5, k6, k7⟩ := key c.el
  refine ctxGood_el hD hE hK h ⟨k1, k2, k3, fun hd => by rw [k4]; exact (goodList_split h.1).2.1.2 hd, k5, k6⟩ (fun hl => ?_)
  obtain ⟨s, hs | ⟨hs, hne⟩⟩ := k7 c.el.text
  · rw [hs, k4]; exact hl
  · rw [hs, k4]
    have hmem := setPreviousText_mem c.el.text c.el.children s
    have ht : (setPreviousText c.el.text c.el.children s).1 = c.el.text := by
      unfold setPreviousText
      rw [List.getLast?_eq_some_getLast hne]
    refine ⟨⟨fun e he => ?_, ?_⟩, ?_⟩
    · obtain ⟨e0, e1, e2, e3, e4, e5, _⟩ := hmem e he
      obtain ⟨q1, q2⟩ := hl.1.1 e0 e1
      exact ⟨hK _ _ e2 e3 e4 q1, fun hd => by rw [e5]; exact q2 (hD _ _ e2.symm e3.symm e4.symm hd)⟩
    · have := setPreviousText_walk hD hE c.el.text c.el.children s hl.1.2
      rw [ht] at this
      exact this
    · exact jAlls_mem_of_children (fun e he => by obtain ⟨e0, e1, _, _, _, e5, e6⟩ := hmem e he; exact ⟨e0, e1, e5, e6⟩) hl.2

theorem quotesOp_good {D E K : JNode → Prop} (hD : Shallow D) (hE : Shallow E) (hK : Shallow K) (c : JCtx) (h : CtxGood D E K c) :
    CtxGood D E K (quotesOp c) ∧ (c.text.isSome = true → (quotesOp c).text.isSome = true) := by
  have hm := moveFirstOut_good hD hE hK c h
  unfold quotesOp
  simp only []
  split
  · exact ⟨h, fun h => h⟩
  · split
    · exact ⟨moveLastOut_good hD hE hK _ _ hm.1, hm.2⟩
    · split
      · exact ⟨h, fun h => h⟩
      · split
        · exact ⟨h, fun h => h⟩
        · split
          · exact hm
          · exact ⟨h, fun h => h⟩

theorem titleQuotesOp_lists {D E K : JNode → Prop} (hD : Shallow D) (hE : Shallow E) (hK : Shallow K) (c : JCtx)
    (h : Lists (GoodList D E K) c.text (c.left ++ c.el :: c.right)) :
    ∃ t' cs' b, titleQuotesOp c = .ok (t', cs', b) ∧ Lists (GoodList D E K) t' cs' ∧ (c.text.isSome = true → t'.isSome = true) := by
  have h1 := quotesOp_good hD hE hK c h
  have h2 : CtxGood D E K (commaOp (quotesOp c)) ∧ (commaOp (quotesOp c)).text = (quotesOp c).text := by
    unfold commaOp
    simp only []
    split
    · exact ⟨h1.1, rfl⟩
    · exact ⟨moveLastOut_good hD hE hK _ _ h1.1, rfl⟩
  refine ⟨_, _, _, rfl, h2.1, fun hs => ?_⟩
  show (commaOp (quotesOp c)).text.isSome = true
  rw [h2.2]
  exact h1.2 hs

end Verif
