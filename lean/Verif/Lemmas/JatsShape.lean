/-
Helper lemmas: the elements of a reference, apart from their tails, through all steps.
-/
import Verif.Lemmas.JatsFix
import Verif.Lemmas.Dict

namespace Verif
open Spec

/-- An element without its children and tail. -/
structure JShape where
  id : Nat
  tag : Str
  attrs : Dict Str
  text : Option Str
  leaf : Bool

def shapeOf (n : JNode) : JShape := ⟨n.id, n.tag, n.attrs, n.text, n.children.isEmpty⟩

/-- The elements in an element, and itself. -/
def shapes (n : JNode) : List JShape := (jAll n).map shapeOf

/-- The elements in a list of elements. -/
def shapesL (ns : List JNode) : List JShape := (jAlls ns).map shapeOf

theorem shapes_eq (n : JNode) : shapes n = shapeOf n :: shapesL n.children := by
  cases n; rfl

@[simp] theorem shapesL_nil : shapesL [] = [] := rfl

theorem shapesL_cons (n : JNode) (ns : List JNode) : shapesL (n :: ns) = shapes n ++ shapesL ns := by
  simp [shapesL, jAlls, shapes]

theorem shapesL_append (l r : List JNode) : shapesL (l ++ r) = shapesL l ++ shapesL r := by
  simp [shapesL, jAlls_append]

/-- The identities. -/
def shapeIds (S : List JShape) : List Nat := S.map (·.id)

theorem shapeIds_append (S T : List JShape) : shapeIds (S ++ T) = shapeIds S ++ shapeIds T := List.map_append

theorem shapes_setTail (n : JNode) (t : Option Str) : shapes (n.setTail t) = shapes n := by
  cases n; rfl

/-! ### The place of an edit -/

theorem splitAtId_none {i : Nat} {cs : List JNode} (h : splitAtId i cs = none) : ∀ n ∈ cs, n.id ≠ i := by
  induction cs with
  | nil => intro n hn; cases hn
  | cons m cs ih =>
    unfold splitAtId at h
    split at h
    · cases h
    · next hm =>
      cases hs : splitAtId i cs with
      | none =>
        intro n hn
        rcases List.mem_cons.mp hn with rfl | hn
        · exact hm
        · exact ih hs n hn
      | some p => simp [hs] at h

theorem splitAtId_absent {i : Nat} {cs : List JNode} (h : ∀ n ∈ cs, n.id ≠ i) : splitAtId i cs = none := by
  induction cs with
  | nil => rfl
  | cons m cs ih =>
    unfold splitAtId
    rw [if_neg (h m List.mem_cons_self), ih (fun n hn => h n (List.mem_cons_of_mem _ hn))]

theorem mem_shapesL_of_mem {n : JNode} {ns : List JNode} (h : n ∈ ns) : shapeOf n ∈ shapesL ns := by
  induction ns with
  | nil => cases h
  | cons m ns ih =>
    rw [shapesL_cons, shapes_eq]
    rcases List.mem_cons.mp h with rfl | h
    · exact List.mem_append_left _ List.mem_cons_self
    · exact List.mem_append_right _ (ih h)

mutual
theorem editAt_absent (i : Nat) (f : JOp) (n : JNode) (h : ∀ s ∈ shapesL n.children, s.id ≠ i) : editAt i f n = .ok (n, false) := by
  match n, h with
  | .mk j g a t cs tl, h =>
    have h : ∀ s ∈ shapesL cs, s.id ≠ i := h
    unfold editAt
    rw [splitAtId_absent (fun n hn => h _ (mem_shapesL_of_mem hn))]
    simp only
    rw [editAts_absent i f cs h]
theorem editAts_absent (i : Nat) (f : JOp) (ns : List JNode) (h : ∀ s ∈ shapesL ns, s.id ≠ i) : editAts i f ns = .ok (ns, false) := by
  match ns, h with
  | [], _ => rfl
  | n :: ns, h =>
    rw [shapesL_cons, shapes_eq] at h
    unfold editAts
    rw [editAt_absent i f n (fun s hs => h s (List.mem_append_left _ (List.mem_cons_of_mem _ hs))),
      editAts_absent i f ns (fun s hs => h s (List.mem_append_right _ hs))]
    rfl
end

theorem editAts_isEmpty {i : Nat} {f : JOp} {ns ns' : List JNode} {b : Bool} (h : editAts i f ns = .ok (ns', b)) :
    ns'.isEmpty = ns.isEmpty := by
  cases ns with
  | nil => cases h; rfl
  | cons n ns =>
    unfold editAts at h
    split at h
    · cases h
    · split at h
      · cases h
      · cases h; rfl

/-- How an edit changes the list of all elements. -/
def Edited (i : Nat) (f : JOp) (S S' : List JShape) (b : Bool) : Prop :=
  ∃ (A B : List JShape) (p : JShape) (c : JCtx) (t' : Option Str) (cs' : List JNode),
    c.el.id = i ∧ f c = .ok (t', cs', b) ∧
    S = A ++ ⟨p.id, p.tag, p.attrs, c.text, false⟩ :: (shapesL (c.left ++ c.el :: c.right) ++ B) ∧
    S' = A ++ ⟨p.id, p.tag, p.attrs, t', cs'.isEmpty⟩ :: (shapesL cs' ++ B)

theorem Edited.extend {i : Nat} {f : JOp} {S S' : List JShape} {b : Bool} (e : Edited i f S S' b) (L R : List JShape) :
    Edited i f (L ++ S ++ R) (L ++ S' ++ R) b := by
  obtain ⟨A, B, p, c, t', cs', h1, h2, h3, h4⟩ := e
  exact ⟨L ++ A, B ++ R, p, c, t', cs', h1, h2, by rw [h3]; simp, by rw [h4]; simp⟩

mutual
theorem editAt_shapes (i : Nat) (f : JOp) (n n' : JNode) (b : Bool) (hnd : (shapeIds (shapes n)).Nodup)
    (h : editAt i f n = .ok (n', b)) :
    ((∀ s ∈ shapesL n.children, s.id ≠ i) ∧ n' = n ∧ b = false) ∨ Edited i f (shapes n) (shapes n') b := by
  match n, hnd, h with
  | .mk j g a t cs tl, hnd, h =>
    unfold editAt at h
    split at h
    · next l e r hs =>
      split at h
      · cases h
      · next t' cs' b' hf =>
        cases h
        obtain ⟨rfl, hid⟩ := splitAtId_spec hs
        refine .inr ⟨[], [], ⟨j, g, a, t, false⟩, ⟨t, l, e, r⟩, t', cs', hid, hf, ?_, ?_⟩
        · simp [shapes_eq, shapeOf, JNode.id, JNode.tag, JNode.attrs, JNode.text, JNode.children]
        · simp [shapes_eq, shapeOf, JNode.id, JNode.tag, JNode.attrs, JNode.text, JNode.children]
    · next hs =>
      split at h
      · cases h
      · next cs' b' he =>
        cases h
        have hnd' : (shapeIds (shapesL cs)).Nodup := by
          rw [shapes_eq] at hnd
          exact (List.nodup_cons.mp hnd).2
        have hem := editAts_isEmpty he
        rcases editAts_shapes i f cs cs' b hnd' (splitAtId_none hs) he with ⟨h1, rfl, h3⟩ | e
        · exact .inl ⟨h1, rfl, h3⟩
        · right
          have := e.extend [⟨j, g, a, t, cs.isEmpty⟩] []
          rw [shapes_eq, shapes_eq]
          simp only [List.append_nil, List.cons_append, List.nil_append] at this
          show Edited i f (⟨j, g, a, t, cs.isEmpty⟩ :: shapesL cs) (⟨j, g, a, t, cs'.isEmpty⟩ :: shapesL cs') b
          rw [hem]
          exact this
theorem editAts_shapes (i : Nat) (f : JOp) (ns ns' : List JNode) (b : Bool) (hnd : (shapeIds (shapesL ns)).Nodup)
    (hne : ∀ n ∈ ns, n.id ≠ i) (h : editAts i f ns = .ok (ns', b)) :
    ((∀ s ∈ shapesL ns, s.id ≠ i) ∧ ns' = ns ∧ b = false) ∨ Edited i f (shapesL ns) (shapesL ns') b := by
  match ns, hnd, hne, h with
  | [], _, _, h => cases h; exact .inl ⟨fun s hs => (by cases hs), rfl, rfl⟩
  | n :: ns, hnd, hne, h =>
    unfold editAts at h
    split at h
    · cases h
    · next n' b1 h1 =>
      split at h
      · cases h
      · next ns' b2 h2 =>
        cases h
        rw [shapesL_cons, shapeIds_append] at hnd
        obtain ⟨hn1, hn2, hdis⟩ := List.nodup_append.mp hnd
        rw [shapesL_cons, shapesL_cons]
        rcases editAt_shapes i f n n' b1 hn1 h1 with ⟨g1, rfl, g3⟩ | e
        · rcases editAts_shapes i f ns ns' b2 hn2 (fun m hm => hne m (List.mem_cons_of_mem _ hm)) h2 with ⟨k1, rfl, k3⟩ | e
          · left
            refine ⟨?_, rfl, by rw [g3, k3]; rfl⟩
            intro s hs
            rw [shapes_eq] at hs
            rcases List.mem_append.mp hs with hs | hs
            · rcases List.mem_cons.mp hs with rfl | hs
              · exact hne n' List.mem_cons_self
              · exact g1 s hs
            · exact k1 s hs
          · right
            have := e.extend (shapes n') []
            rw [List.append_nil, List.append_nil] at this
            rw [g3]
            simpa using this
        · have hi : i ∈ shapeIds (shapes n) := by
            obtain ⟨A, B, p, c, t', cs', h1, h2, h3, h4⟩ := e
            rw [h3, ← h1]
            refine List.mem_map.mpr ⟨shapeOf c.el, ?_, rfl⟩
            refine List.mem_append_right _ (List.mem_cons_of_mem _ (List.mem_append_left _ ?_))
            exact mem_shapesL_of_mem (List.mem_append_right _ List.mem_cons_self)
          have hab : ∀ s ∈ shapesL ns, s.id ≠ i := by
            intro s hs hc
            exact hdis i hi i (List.mem_map.mpr ⟨s, hs, hc⟩) rfl
          rw [editAts_absent i f ns hab] at h2
          cases h2
          right
          have := e.extend [] (shapesL ns)
          simpa using this
end

/-! ### The operations -/

theorem shapesL_setPrevious (t : Option Str) (l : List JNode) (s : Option Str) : shapesL (setPreviousText t l s).2 = shapesL l := by
  unfold setPreviousText
  cases hl : l.getLast? with
  | none => rfl
  | some e =>
    obtain ⟨l', rfl⟩ := List.getLast?_eq_some_iff.mp hl
    simp only [List.dropLast_concat]
    rw [shapesL_append, shapesL_append, shapesL_cons, shapesL_cons, shapes_setTail]

theorem shapesL_addToPrevious (t : Option Str) (l : List JNode) (s : Str) : shapesL (addToPrevious t l s).2 = shapesL l :=
  shapesL_setPrevious ..

/-- What is known about the element itself after a step. -/
def ElOk (env : JatsEnv) (k : JatsFix) (el : JNode) (s : JShape) : Prop :=
  match k with
  | .lowerType => s.text = el.text ∧ s.leaf = el.children.isEmpty ∧
      s.attrs = if truthy (el.attrs.get? c!"pub-id-type") && env.lower (orEmpty (el.attrs.get? c!"pub-id-type")) ∈ knownPubIdTypes then
        el.attrs.set c!"pub-id-type" (env.lower (orEmpty (el.attrs.get? c!"pub-id-type"))) else el.attrs
  | .doi | .pii | .pmid | .pmcid => s.attrs = el.attrs ∧ s.leaf = el.children.isEmpty ∧
      (s.text = none ∨ ∃ x a b, fixFind env k x = .ok (some (a, b)) ∧ s.text = some (sliceStr x a b))
  | .doiLink => s = shapeOf el
  | _ => True

/-- What is known about new elements. -/
def NewOk (env : JatsEnv) (k : JatsFix) (s : JShape) : Prop :=
  match k with
  | .doiLink | .splitLink => s.tag = c!"ext-link"
  | .addPmid | .addPmcid | .addPii | .addPiiOther | .addWos | .addDoi =>
    s.tag = c!"pub-id" ∧ s.leaf = true ∧ (∃ b, addedType k = some (s.attrs.getD c!"pub-id-type" [], b)) ∧
      (∃ x a b, fixFind env k x = .ok (some (a, b)) ∧ s.text = some (sliceStr x a b))
  | _ => False

structure OpOk (env : JatsEnv) (k : JatsFix) (fresh : Nat) (c : JCtx) (cs' : List JNode) : Prop where
  counts : ∀ j, (shapeIds (shapesL cs')).count j ≤
    (shapeIds (shapesL (c.left ++ c.el :: c.right))).count j + (if fresh ≤ j then 1 else 0)
  mem : ∀ s ∈ shapesL cs', s ∈ shapesL c.left ++ shapesL c.el.children ++ shapesL c.right ∨
    (s.id = c.el.id ∧ s.tag = c.el.tag ∧ ElOk env k c.el s) ∨
    (s.tag ≠ c!"pub-id" ∧ ∃ s0 ∈ shapesL c.el.children, s0.id = s.id ∧ s0.tag = s.tag ∧ s0.attrs = s.attrs) ∨
    (fresh ≤ s.id ∧ NewOk env k s)

/-- An operation that only changes the element itself, or removes it. -/
theorem opOk_same {env : JatsEnv} {k : JatsFix} {fresh : Nat} {c : JCtx} {l' : List JNode} {e' : JNode}
    (hl : shapesL l' = shapesL c.left) (hid : e'.id = c.el.id) (htag : e'.tag = c.el.tag)
    (hch : shapesL e'.children = shapesL c.el.children) (hel : ElOk env k c.el (shapeOf e')) :
    OpOk env k fresh c (l' ++ e' :: c.right) := by
  constructor
  · intro j
    simp only [shapesL_append, shapesL_cons, shapes_eq, hl, hch, shapeIds, List.map_append, List.map_cons, shapeOf, hid]
    exact Nat.le_add_right _ _
  · intro s hs
    simp only [shapesL_append, shapesL_cons, shapes_eq, hl, hch, List.mem_append, List.mem_cons] at hs ⊢
    rcases hs with hs | (rfl | hs) | hs
    · exact .inl (.inl (.inl hs))
    · exact .inr (.inl ⟨hid, htag, hel⟩)
    · exact .inl (.inl (.inr hs))
    · exact .inl (.inr hs)

theorem opOk_removed {env : JatsEnv} {k : JatsFix} {fresh : Nat} {c : JCtx} {l' : List JNode} (hl : shapesL l' = shapesL c.left) :
    OpOk env k fresh c (l' ++ c.right) := by
  constructor
  · intro j
    simp only [shapesL_append, shapesL_cons, shapes_eq, hl, shapeIds, List.map_append, List.count_append]
    omega
  · intro s hs
    simp only [shapesL_append, hl, List.mem_append] at hs ⊢
    rcases hs with hs | hs
    · exact .inl (.inl (.inl hs))
    · exact .inl (.inr hs)

theorem opOk_lower (env : JatsEnv) (fresh : Nat) (c : JCtx) (t : Option Str) (cs : List JNode) (b : Bool)
    (h : lowerTypeOp env c = .ok (t, cs, b)) : OpOk env .lowerType fresh c cs ∧ b = false := by
  unfold lowerTypeOp at h
  cases h
  refine ⟨opOk_same rfl ?_ ?_ ?_ ?_, rfl⟩
  · split <;> rfl
  · split <;> rfl
  · split <;> rfl
  · unfold ElOk
    by_cases hc : (truthy (c.el.attrs.get? c!"pub-id-type") && env.lower (orEmpty (c.el.attrs.get? c!"pub-id-type")) ∈ knownPubIdTypes) = true
    · rw [if_pos hc, if_pos hc]; exact ⟨rfl, rfl, rfl⟩
    · rw [if_neg hc, if_neg hc]; exact ⟨rfl, rfl, rfl⟩

theorem opOk_change (env : JatsEnv) (k : JatsFix) (fresh : Nat) (c : JCtx) (t : Option Str) (cs : List JNode) (b : Bool)
    (hel : ∀ e', e'.attrs = c.el.attrs → e'.children = c.el.children →
      (e'.text = none ∨ ∃ x a b, fixFind env k x = .ok (some (a, b)) ∧ e'.text = some (sliceStr x a b)) → ElOk env k c.el (shapeOf e'))
    (h : changeOp (fixFind env k) c = .ok (t, cs, b)) : OpOk env k fresh c cs ∧ b = false := by
  unfold changeOp at h
  split at h
  · next ht =>
    cases h
    exact ⟨opOk_same rfl rfl rfl rfl (hel _ rfl rfl (.inl ht)), rfl⟩
  · next text ht =>
    split at h
    · cases h
    · cases h
      exact ⟨opOk_removed (shapesL_addToPrevious ..), rfl⟩
    · next start stop hf =>
      cases h
      exact ⟨opOk_same (shapesL_addToPrevious ..) rfl rfl rfl (hel _ rfl rfl (.inr ⟨_, _, _, hf, rfl⟩)), rfl⟩

theorem shapesL_moveLastOut (e : JNode) (k : Nat) : shapesL (moveLastOut e k).children = shapesL e.children := by
  unfold moveLastOut
  cases hl : e.children.getLast? with
  | none => rfl
  | some last =>
    simp only
    split
    · obtain ⟨l', hl'⟩ := List.getLast?_eq_some_iff.mp hl
      show shapesL (e.children.dropLast ++ [last.setTail _]) = _
      rw [hl', List.dropLast_concat, shapesL_append, shapesL_append, shapesL_cons, shapesL_cons, shapes_setTail]
    · rfl

theorem moveLastOut_keeps (e : JNode) (k : Nat) : (moveLastOut e k).id = e.id ∧ (moveLastOut e k).tag = e.tag ∧
    (moveLastOut e k).attrs = e.attrs := by
  unfold moveLastOut
  cases hl : e.children.getLast? with
  | none => exact ⟨rfl, rfl, rfl⟩
  | some last =>
    simp only
    split <;> exact ⟨rfl, rfl, rfl⟩

/-- The element itself and its place are kept. -/
def KeptCtx (c c' : JCtx) : Prop :=
  shapesL c'.left = shapesL c.left ∧ c'.el.id = c.el.id ∧ c'.el.tag = c.el.tag ∧ c'.el.attrs = c.el.attrs ∧
    shapesL c'.el.children = shapesL c.el.children ∧ c'.right = c.right

theorem KeptCtx.trans {a b c : JCtx} (h : KeptCtx a b) (h' : KeptCtx b c) : KeptCtx a c :=
  ⟨h'.1.trans h.1, h'.2.1.trans h.2.1, h'.2.2.1.trans h.2.2.1, h'.2.2.2.1.trans h.2.2.2.1, h'.2.2.2.2.1.trans h.2.2.2.2.1,
    h'.2.2.2.2.2.trans h.2.2.2.2.2⟩

theorem keptCtx_refl (c : JCtx) : KeptCtx c c := ⟨rfl, rfl, rfl, rfl, rfl, rfl⟩

theorem keptCtx_first (c : JCtx) : KeptCtx c (moveFirstOut c) := by
  unfold moveFirstOut
  split
  · exact ⟨shapesL_addToPrevious .., rfl, rfl, rfl, rfl, rfl⟩
  · exact keptCtx_refl c

theorem keptCtx_last (c : JCtx) (k : Nat) : KeptCtx c { c with el := moveLastOut c.el k } :=
  ⟨rfl, (moveLastOut_keeps ..).1, (moveLastOut_keeps ..).2.1, (moveLastOut_keeps ..).2.2, shapesL_moveLastOut .., rfl⟩

theorem keptCtx_quotes (c : JCtx) : KeptCtx c (quotesOp c) := by
  unfold quotesOp
  simp only
  split
  · exact keptCtx_refl c
  · split
    · exact (keptCtx_first c).trans (keptCtx_last _ _)
    · split
      · exact keptCtx_refl c
      · split
        · exact keptCtx_refl c
        · split
          · exact keptCtx_first c
          · exact keptCtx_refl c

theorem keptCtx_comma (c : JCtx) : KeptCtx c (commaOp c) := by
  unfold commaOp
  simp only
  split
  · exact keptCtx_refl c
  · exact keptCtx_last _ _

theorem opOk_title (env : JatsEnv) (fresh : Nat) (c : JCtx) (t : Option Str) (cs : List JNode) (b : Bool)
    (h : titleQuotesOp c = .ok (t, cs, b)) : OpOk env .titleQuotes fresh c cs ∧ b = false := by
  unfold titleQuotesOp at h
  cases h
  obtain ⟨h1, h2, h3, h4, h5, h6⟩ := (keptCtx_quotes c).trans (keptCtx_comma _)
  rw [h6]
  exact ⟨opOk_same h1 h2 h3 h5 trivial, rfl⟩

theorem opOk_link (env : JatsEnv) (fresh : Nat) (c : JCtx) (t : Option Str) (cs : List JNode) (b : Bool)
    (h : linkHrefOp env c = .ok (t, cs, b)) : OpOk env .linkHref fresh c cs ∧ b = false := by
  unfold linkHrefOp at h
  cases h
  refine ⟨opOk_same rfl ?_ ?_ ?_ trivial, rfl⟩ <;> split <;> rfl

theorem opOk_replaced {env : JatsEnv} {k : JatsFix} {fresh : Nat} {c : JCtx} {l' : List JNode} {e' : JNode}
    (hl : shapesL l' = shapesL c.left) (hid : e'.id = fresh) (hch : e'.children = []) (hnew : NewOk env k (shapeOf e')) :
    OpOk env k fresh c (l' ++ e' :: c.right) := by
  constructor
  · intro j
    simp only [shapesL_append, shapesL_cons, shapes_eq, hl, hch, shapeIds, List.map_append, List.count_append, List.map_cons,
      List.count_cons, shapeOf, hid, shapesL_nil, List.map_nil, List.count_nil]
    rcases Nat.lt_or_ge j fresh with hj | hj
    · rw [if_neg (by simp; omega)]; omega
    · rw [if_pos hj]; split <;> omega
  · intro s hs
    simp only [shapesL_append, shapesL_cons, shapes_eq, hl, hch, List.mem_append, List.mem_cons, shapesL_nil] at hs ⊢
    rcases hs with hs | (rfl | hs) | hs
    · exact .inl (.inl (.inl hs))
    · exact .inr (.inr (.inr ⟨Nat.le_of_eq hid.symm, hnew⟩))
    · cases hs
    · exact .inl (.inr hs)

theorem opOk_doiLink (env : JatsEnv) (fresh : Nat) (c : JCtx) (t : Option Str) (cs : List JNode) (b : Bool)
    (h : doiLinkOp env fresh c = .ok (t, cs, b)) : OpOk env .doiLink fresh c cs ∧ b = false := by
  unfold doiLinkOp at h
  split at h
  · cases h
  · next prev _ =>
    split at h
    · cases h
      exact ⟨opOk_same rfl rfl rfl rfl rfl, rfl⟩
    · next start _ _ =>
      split at h
      · cases h
      · have hl := shapesL_setPrevious c.text c.left (some (prev.take start))
        generalize setPreviousText c.text c.left (some (prev.take start)) = x at h hl
        cases h
        exact ⟨opOk_replaced hl rfl rfl rfl, rfl⟩

theorem shapesL_links (cc : CharClass) (fresh : Nat) (l : List Str) (k : Nat) :
    ∀ s ∈ shapesL ((l.zipIdx k).map (fun p => extLinkElement cc (fresh + p.2) p.1 none)), fresh + k ≤ s.id ∧ s.tag = c!"ext-link" := by
  induction l generalizing k with
  | nil => intro s hs; cases hs
  | cons x l ih =>
    intro s hs
    rw [List.zipIdx_cons, List.map_cons, shapesL_cons, shapes_eq] at hs
    rcases List.mem_append.mp hs with hs | hs
    · rcases List.mem_cons.mp hs with rfl | hs
      · exact ⟨Nat.le_refl _, rfl⟩
      · cases hs
    · obtain ⟨h1, h2⟩ := ih (k + 1) s hs
      exact ⟨by omega, h2⟩

theorem shapesL_links_count (cc : CharClass) (fresh : Nat) (l : List Str) (k j : Nat) :
    (shapeIds (shapesL ((l.zipIdx k).map (fun p => extLinkElement cc (fresh + p.2) p.1 none)))).count j ≤ if fresh + k ≤ j then 1 else 0 := by
  induction l generalizing k with
  | nil => simp [shapeIds]
  | cons x l ih =>
    have := ih (k + 1)
    rw [List.zipIdx_cons, List.map_cons, shapesL_cons, shapeIds_append, List.count_append]
    generalize (shapeIds (shapesL ((l.zipIdx (k + 1)).map (fun p => extLinkElement cc (fresh + p.2) p.1 none)))).count j = m at this ⊢
    have h1 : (shapeIds (shapes (extLinkElement cc (fresh + k) x none))).count j = if fresh + k = j then 1 else 0 := by
      rw [show shapeIds (shapes (extLinkElement cc (fresh + k) x none)) = [fresh + k] from rfl, List.count_singleton]
      simp
    show (shapeIds (shapes (extLinkElement cc (fresh + k) x none))).count j + m ≤ _
    rw [h1]
    by_cases g1 : fresh + k = j
    · rw [if_neg (by omega)] at this
      rw [if_pos g1, if_pos (by omega)]
      omega
    · rw [if_neg g1]
      by_cases g2 : fresh + k ≤ j
      · rw [if_pos (by omega)] at this
        rw [if_pos g2]; omega
      · rw [if_neg (by omega)] at this
        rw [if_neg g2]; omega

theorem opOk_splitLink (env : JatsEnv) (fresh : Nat) (c : JCtx) (t : Option Str) (cs : List JNode) (b : Bool)
    (h : splitLinkOp env fresh c = .ok (t, cs, b)) : OpOk env .splitLink fresh c cs ∧ b = false := by
  unfold splitLinkOp at h
  simp only [] at h
  split at h
  · cases h
    exact ⟨opOk_same rfl rfl rfl rfl trivial, rfl⟩
  · split at h
    · cases h
      exact ⟨opOk_same rfl rfl rfl rfl trivial, rfl⟩
    · cases h
      refine ⟨?_, rfl⟩
      generalize splitUrl (orEmpty c.el.text) = hrefs
      have key : ∀ e' : JNode, e'.id = c.el.id → e'.tag = c.el.tag → e'.children = c.el.children →
          OpOk env .splitLink fresh c (c.left ++ e' :: (hrefs.drop 1).zipIdx.map (fun p => extLinkElement env.cc (fresh + p.2) p.1 none) ++ c.right) := by
        intro e' h1 h2 h3
        have hm := shapesL_links env.cc fresh (hrefs.drop 1) 0
        have hc := shapesL_links_count env.cc fresh (hrefs.drop 1) 0
        generalize (hrefs.drop 1).zipIdx.map (fun p => extLinkElement env.cc (fresh + p.2) p.1 none) = links at hm hc
        constructor
        · intro j
          have := hc j
          simp only [List.append_assoc, List.cons_append, shapesL_append, shapesL_cons, shapes_eq, h3, shapeIds, List.map_append, List.count_append, List.map_cons,
            List.count_cons, shapeOf, h1, Nat.add_zero] at this ⊢
          omega
        · intro s hs
          simp only [List.append_assoc, List.cons_append, shapesL_append, shapesL_cons, shapes_eq, h3, List.mem_append, List.mem_cons] at hs ⊢
          rcases hs with hs | rfl | hs | hs | hs
          · exact .inl (.inl hs)
          · exact .inr (.inl ⟨h1, h2, trivial⟩)
          · exact .inl (.inr (.inl hs))
          · exact .inr (.inr (.inr (hm s hs)))
          · exact .inl (.inr (.inr hs))
      match hrefs with
      | [] => exact key _ rfl rfl rfl
      | [_] => exact key _ rfl rfl rfl
      | _ :: _ :: _ => exact key _ rfl rfl rfl

/-! ### Adding annotations -/

/-- Elements `ns'` are elements `ns` with at most one new one. -/
structure Added (fresh : Nat) (New : JShape → Prop) (S S' : List JShape) : Prop where
  counts : ∀ j, (shapeIds S').count j ≤ (shapeIds S).count j + (if fresh ≤ j then 1 else 0)
  mem : ∀ s ∈ S', s ∈ S ∨ (s.tag ≠ c!"pub-id" ∧ ∃ s0 ∈ S, s0.id = s.id ∧ s0.tag = s.tag ∧ s0.attrs = s.attrs) ∨
    (fresh ≤ s.id ∧ New s)
  kept : ∀ j ∈ shapeIds S, j ∈ shapeIds S'

theorem Added.refl (fresh : Nat) (New : JShape → Prop) (S : List JShape) : Added fresh New S S :=
  ⟨fun _ => Nat.le_add_right _ _, fun _ hs => .inl hs, fun _ h => h⟩

theorem Added.append_left {fresh : Nat} {New : JShape → Prop} {S S' : List JShape} (h : Added fresh New S S') (L : List JShape) :
    Added fresh New (L ++ S) (L ++ S') := by
  constructor
  · intro j
    have := h.counts j
    simp only [shapeIds_append, List.count_append]
    omega
  · intro s hs
    rcases List.mem_append.mp hs with hs | hs
    · exact .inl (List.mem_append_left _ hs)
    · rcases h.mem s hs with h | ⟨h1, s0, h2, h3⟩ | h
      · exact .inl (List.mem_append_right _ h)
      · exact .inr (.inl ⟨h1, s0, List.mem_append_right _ h2, h3⟩)
      · exact .inr (.inr h)
  · intro j hj
    rw [shapeIds_append] at hj ⊢
    rcases List.mem_append.mp hj with hj | hj
    · exact List.mem_append_left _ hj
    · exact List.mem_append_right _ (h.kept j hj)

/-- A new element without children. -/
theorem Added.new (fresh : Nat) (New : JShape → Prop) (S : List JShape) (e : JNode) (hid : e.id = fresh) (hch : e.children = [])
    (hn : New (shapeOf e)) : Added fresh New S (shapes e ++ S) := by
  rw [shapes_eq, hch]
  constructor
  · intro j
    simp only [shapesL_nil, List.cons_append, List.nil_append, shapeIds, List.map_cons, List.count_cons, shapeOf, hid]
    rcases Nat.lt_or_ge j fresh with hj | hj
    · rw [if_neg (by simp; omega)]; omega
    · rw [if_pos hj]; split <;> omega
  · intro s hs
    simp only [shapesL_nil, List.cons_append, List.nil_append, List.mem_cons] at hs
    rcases hs with rfl | hs
    · exact .inr (.inr ⟨Nat.le_of_eq hid.symm, hn⟩)
    · exact .inl hs
  · intro j hj
    exact List.mem_cons_of_mem _ hj

/-- New elements of an operation. -/
def Creating (find : Str → Except Err (Option (Nat × Nat))) (create : Str → Option Str → JNode) (fresh : Nat) (New : JShape → Prop) : Prop :=
  ∀ s t, (create s t).id = fresh ∧ (create s t).children = [] ∧
    ((∃ x a b, find x = .ok (some (a, b)) ∧ s = sliceStr x a b) → New (shapeOf (create s t)))

theorem addToTails_added {find : Str → Except Err (Option (Nat × Nat))} {create : Str → Option Str → JNode} {fresh : Nat}
    {New : JShape → Prop} (hcr : Creating find create fresh New) {ns ns' : List JNode}
    (h : addToTails find create ns = .ok (some ns')) : Added fresh New (shapesL ns) (shapesL ns') := by
  induction ns generalizing ns' with
  | nil => cases h
  | cons n ns ih =>
    unfold addToTails at h
    split at h
    · cases h
    · next start stop hs =>
      cases h
      have hs : find (orEmpty n.tail) = .ok (some (start, stop)) := by
        split at hs
        · exact hs
        · cases hs
      rw [shapesL_cons, shapesL_cons, shapesL_cons, shapes_setTail]
      exact (Added.new fresh New (shapesL ns) _ (hcr _ _).1 (hcr _ _).2.1 ((hcr _ _).2.2 ⟨_, _, _, hs, rfl⟩)).append_left _
    · cases hr : addToTails find create ns with
      | error x => simp [hr] at h
      | ok o =>
        cases o with
        | none => simp [hr] at h
        | some r =>
          simp only [hr] at h
          cases h
          rw [shapesL_cons, shapesL_cons]
          exact (ih hr).append_left _

theorem addToComments_added {find : Str → Except Err (Option (Nat × Nat))} {create : Str → Option Str → JNode} {fresh : Nat}
    {New : JShape → Prop} (hcr : Creating find create fresh New) {ns ns' : List JNode}
    (h : addToComments find create ns = .ok ns') : Added fresh New (shapesL ns) (shapesL ns') := by
  induction ns generalizing ns' with
  | nil => cases h; exact .refl ..
  | cons n ns ih =>
    unfold addToComments at h
    split at h
    · cases h
    · next start stop hs =>
      cases h
      obtain ⟨htag, hs⟩ : n.tag = c!"comment" ∧ find (orEmpty n.text) = .ok (some (start, stop)) := by
        split at hs
        · next hc => exact ⟨hc.1, hs⟩
        · cases hs
      have hnew := (Added.new fresh New (shapesL ns) (create (sliceStr (orEmpty n.text) start stop) (some ((orEmpty n.text).drop stop)))
        (hcr _ _).1 (hcr _ _).2.1 ((hcr _ _).2.2 ⟨_, _, _, hs, rfl⟩))
      rw [shapesL_cons, shapesL_cons, shapesL_cons]
      have h2 := hnew.append_left (shapes n)
      constructor
      · intro j
        have := h2.counts j
        rw [shapes_eq n] at this ⊢
        rw [shapes_eq (n.setText _)]
        exact this
      · intro s hs
        rw [shapes_eq (n.setText _)] at hs
        rcases List.mem_append.mp hs with hs | hs
        · rcases List.mem_cons.mp hs with rfl | hs
          · right; left
            refine ⟨?_, shapeOf n, ?_, rfl, rfl, rfl⟩
            · show n.tag ≠ _
              rw [htag]; decide
            · rw [shapes_eq]; exact List.mem_append_left _ List.mem_cons_self
          · left
            rw [shapes_eq]; exact List.mem_append_left _ (List.mem_cons_of_mem _ hs)
        · exact h2.mem s (List.mem_append_right _ hs)
      · intro j hj
        have := h2.kept j hj
        rw [shapes_eq n] at this
        rw [shapes_eq (n.setText _)]
        exact this
    · cases hr : addToComments find create ns with
      | error x => simp [hr] at h
      | ok r =>
        simp only [hr] at h
        cases h
        rw [shapesL_cons, shapesL_cons]
        exact (ih hr).append_left _

theorem addAnnotation_added {find : Str → Except Err (Option (Nat × Nat))} {create : Str → Option Str → JNode} {fresh : Nat}
    {New : JShape → Prop} (hcr : Creating find create fresh New) {pc : Bool} {e e' : JNode} {b : Bool}
    (h : addAnnotation find create pc e = .ok (e', b)) :
    e'.id = e.id ∧ e'.tag = e.tag ∧ e'.attrs = e.attrs ∧ Added fresh New (shapesL e.children) (shapesL e'.children) := by
  unfold addAnnotation at h
  split at h
  · cases h
  · next start stop hs =>
    cases h
    have hs : find (orEmpty e.text) = .ok (some (start, stop)) := by
      split at hs
      · exact hs
      · cases hs
    refine ⟨rfl, rfl, rfl, ?_⟩
    show Added fresh New (shapesL e.children) (shapesL (_ :: e.children))
    rw [shapesL_cons]
    exact Added.new fresh New _ _ (hcr _ _).1 (hcr _ _).2.1 ((hcr _ _).2.2 ⟨_, _, _, hs, rfl⟩)
  · split at h
    · cases h
    · next cs hcs =>
      cases h
      exact ⟨rfl, rfl, rfl, addToTails_added hcr hcs⟩
    · split at h
      · split at h
        · cases h
        · next cs hcs =>
          cases h
          exact ⟨rfl, rfl, rfl, addToComments_added hcr hcs⟩
      · cases h
        exact ⟨rfl, rfl, rfl, .refl ..⟩

theorem opOk_add (env : JatsEnv) (k : JatsFix) (fresh : Nat) (type : Str) (bl : Option Str) (hk : addedType k = some (type, bl)) (pc : Bool)
    (c : JCtx) (t : Option Str) (cs : List JNode) (b : Bool)
    (h : addOp (fixFind env k) (fun s => pubIdElement fresh s type) pc c = .ok (t, cs, b)) : OpOk env k fresh c cs ∧
      ∀ j ∈ shapeIds (shapesL (c.left ++ c.el :: c.right)), j ∈ shapeIds (shapesL cs) := by
  have hcr : Creating (fixFind env k) (fun s => pubIdElement fresh s type) fresh (NewOk env k) := by
    intro s t
    refine ⟨rfl, rfl, ?_⟩
    rintro ⟨x, a, b, hx, rfl⟩
    have key : (pubIdElement fresh (sliceStr x a b) type t).tag = c!"pub-id" ∧ (shapeOf (pubIdElement fresh (sliceStr x a b) type t)).leaf = true ∧
        (∃ bl, addedType k = some ((shapeOf (pubIdElement fresh (sliceStr x a b) type t)).attrs.getD c!"pub-id-type" [], bl)) ∧
        (∃ x' a' b', fixFind env k x' = .ok (some (a', b')) ∧ (shapeOf (pubIdElement fresh (sliceStr x a b) type t)).text = some (sliceStr x' a' b')) := by
      refine ⟨rfl, rfl, ⟨bl, ?_⟩, x, a, b, hx, rfl⟩
      rw [hk]; rfl
    cases k <;> first | (simp only [addedType] at hk; cases hk; done) | exact key
  unfold addOp at h
  split at h
  · cases h
  · next e stop ha =>
    cases h
    obtain ⟨h1, h2, h3, h4⟩ := addAnnotation_added hcr ha
    refine ⟨?_, ?_⟩
    rotate_left
    · intro j hj
      have := h4.kept j
      simp only [shapesL_append, shapesL_cons, shapes_eq, shapeIds, List.map_append, List.map_cons, shapeOf, h1, List.mem_append,
        List.mem_cons] at this hj ⊢
      rcases hj with hj | (hj | hj) | hj
      · exact .inl hj
      · exact .inr (.inl (.inl hj))
      · exact .inr (.inl (.inr (this hj)))
      · exact .inr (.inr hj)
    constructor
    · intro j
      have := h4.counts j
      simp only [shapesL_append, shapesL_cons, shapes_eq, shapeIds, List.map_append, List.count_append, List.map_cons,
        List.count_cons, shapeOf, h1] at this ⊢
      omega
    · intro s hs
      simp only [shapesL_append, shapesL_cons, shapes_eq, List.mem_append, List.mem_cons] at hs ⊢
      rcases hs with hs | (rfl | hs) | hs
      · exact .inl (.inl (.inl hs))
      · refine .inr (.inl ⟨h1, h2, ?_⟩)
        cases k <;> first | (simp only [addedType] at hk; cases hk; done) | trivial
      · rcases h4.mem s hs with h | h | h
        · exact .inl (.inl (.inr h))
        · exact .inr (.inr (.inl h))
        · exact .inr (.inr (.inr h))
      · exact .inl (.inr hs)

/-- All operations. -/
theorem fixOp_ok (env : JatsEnv) (k : JatsFix) (fresh : Nat) (c : JCtx) (t : Option Str) (cs : List JNode) (b : Bool)
    (h : fixOp env k fresh c = .ok (t, cs, b)) : OpOk env k fresh c cs ∧ (b = true → addedType k ≠ none) ∧
      (addedType k ≠ none → ∀ j ∈ shapeIds (shapesL (c.left ++ c.el :: c.right)), j ∈ shapeIds (shapesL cs)) := by
  have hb : ∀ {P Q : Prop}, OpOk env k fresh c cs ∧ b = false → addedType k = none → OpOk env k fresh c cs ∧ (b = true → P) ∧ (addedType k ≠ none → Q) := by
    rintro P Q ⟨h1, h2⟩ h3
    exact ⟨h1, (fun h => by rw [h2] at h; cases h), fun h => absurd h3 h⟩
  have hsome : ∀ {x : Str × Option Str}, addedType k = some x → addedType k ≠ none := by
    intro x hx; rw [hx]; exact fun h => by cases h
  cases k
  case lowerType => exact hb (opOk_lower env fresh c t cs b h) rfl
  case titleQuotes => exact hb (opOk_title env fresh c t cs b h) rfl
  case linkHref => exact hb (opOk_link env fresh c t cs b h) rfl
  case doiLink => exact hb (opOk_doiLink env fresh c t cs b h) rfl
  case splitLink => exact hb (opOk_splitLink env fresh c t cs b h) rfl
  case title | linkText => exact hb (opOk_change env _ fresh c t cs b (fun _ _ _ _ => trivial) h) rfl
  case doi | pii | pmid | pmcid =>
    exact hb (opOk_change env _ fresh c t cs b (fun e h1 h2 h3 => ⟨h1, by rw [← h2]; rfl, h3⟩) h) rfl
  all_goals exact ⟨(opOk_add env _ fresh _ _ rfl _ c t cs b h).1, (fun _ => hsome rfl), fun _ => (opOk_add env _ fresh _ _ rfl _ c t cs b h).2⟩

end Verif
