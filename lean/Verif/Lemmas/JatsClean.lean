/-
Lemmas about references in which there is nothing to fix.
-/
import Verif.Lemmas.JatsSucceeds
import Verif.Lemmas.JatsResult
import Verif.Spec.JatsClean

namespace Verif
open Spec

theorem showns_eq (ns : List JNode) : showns ns = ns.map shown := by
  induction ns with
  | nil => rfl
  | cons n ns ih => rw [showns, ih]; rfl

@[simp] theorem shown_id (n : JNode) : (shown n).id = n.id := by cases n; rfl
@[simp] theorem shown_tag (n : JNode) : (shown n).tag = n.tag := by cases n; rfl
@[simp] theorem shown_attrs (n : JNode) : (shown n).attrs = n.attrs := by cases n; rfl
@[simp] theorem shown_text (n : JNode) : (shown n).text = some (orEmpty n.text) := by cases n; rfl
@[simp] theorem shown_tail (n : JNode) : (shown n).tail = some (orEmpty n.tail) := by cases n; rfl
@[simp] theorem shown_children (n : JNode) : (shown n).children = n.children.map shown := by cases n; exact showns_eq _

theorem shown_ext {a b : JNode} (h1 : a.id = b.id) (h2 : a.tag = b.tag) (h3 : a.attrs = b.attrs) (h4 : orEmpty a.text = orEmpty b.text)
    (h5 : a.children.map shown = b.children.map shown) (h6 : orEmpty a.tail = orEmpty b.tail) : shown a = shown b := by
  cases a; cases b
  simp only [JNode.id, JNode.tag, JNode.attrs, JNode.text, JNode.children, JNode.tail] at h1 h2 h3 h4 h5 h6
  unfold shown
  rw [h1, h2, h3, h4, h6, showns_eq, showns_eq, h5]

theorem jAlls_shown (ns : List JNode) : jAlls (ns.map shown) = (jAlls ns).map shown := by
  have key : ∀ n, jAll (shown n) = (jAll n).map shown := by
    intro n
    refine JNode.rec (motive_1 := fun n => jAll (shown n) = (jAll n).map shown)
      (motive_2 := fun ns => jAlls (ns.map shown) = (jAlls ns).map shown) ?_ ?_ ?_ n
    · intro i g a t cs tl ih
      have e : shown (.mk i g a t cs tl) = .mk i g a (some (orEmpty t)) (cs.map shown) (some (orEmpty tl)) := by
        rw [shown, showns_eq]
      rw [jAll_eq, jAll_eq (.mk i g a t cs tl), shown_children, List.map_cons]
      congr 1
    · rfl
    · intro n ns ih1 ih2
      rw [List.map_cons]
      show jAll (shown n) ++ jAlls (ns.map shown) = (jAll n ++ jAlls ns).map shown
      rw [ih1, ih2, List.map_append]
  induction ns with
  | nil => rfl
  | cons n ns ih =>
    rw [List.map_cons]
    show jAll (shown n) ++ jAlls (ns.map shown) = (jAll n ++ jAlls ns).map shown
    rw [key, ih, List.map_append]

theorem jAll_shown (n : JNode) : jAll (shown n) = (jAll n).map shown := by
  rw [jAll_eq, jAll_eq n, shown_children, jAlls_shown, List.map_cons]

theorem jText_shown (n : JNode) : jText (shown n) = jText n := by
  refine JNode.rec (motive_1 := fun n => jText (shown n) = jText n)
    (motive_2 := fun ns => jTexts (ns.map shown) = jTexts ns) ?_ ?_ ?_ n
  · intro i g a t cs tl ih
    rw [jText_eq, jText_eq (.mk i g a t cs tl), shown_children, shown_text]
    show orEmpty t ++ jTexts (cs.map shown) = _
    rw [ih]; rfl
  · rfl
  · intro n ns ih1 ih2
    rw [List.map_cons, jTexts_cons, jTexts_cons, ih1, ih2, shown_tail]
    rfl

/-! ### Being clean depends on what is shown only -/

theorem textBefore_shown {t : Option Str} {l : List JNode} {p : Str} :
    TextBefore (some (orEmpty t)) (l.map shown) p ↔ TextBefore t l p := by
  constructor
  · rintro (⟨h1, h2⟩ | ⟨l', s, h1, h2⟩)
    · exact .inl ⟨List.map_eq_nil_iff.1 h1, h2⟩
    · obtain ⟨l1, l2, e1, e2, e3⟩ := List.map_eq_append_iff.1 h1
      obtain ⟨s', rfl, rfl⟩ := List.map_eq_singleton_iff.1 e3
      exact .inr ⟨l1, s', e1, by rw [h2, shown_tail]; rfl⟩
  · rintro (⟨rfl, h2⟩ | ⟨l', s, rfl, h2⟩)
    · exact .inl ⟨rfl, h2⟩
    · exact .inr ⟨l'.map shown, shown s, by simp, by rw [h2, shown_tail]; rfl⟩

theorem isPubId_shown (T : Str) (e : JNode) : isPubId T (shown e) = isPubId T e := by
  unfold isPubId; rw [shown_tag, shown_attrs]

theorem cleanElement_shown {env : JatsEnv} {p : Str} {e : JNode} : CleanElement env p (shown e) ↔ CleanElement env p e := by
  constructor <;> intro h <;> constructor
  all_goals
    first
    | (have := h.type; simpa only [shown_tag, shown_attrs] using this)
    | (have := h.label; simpa only [shown_tag, shown_text, orEmpty] using this)
    | (have := h.quotes; simpa only [shown_tag, jText_shown] using this)
    | (have := h.comma; simpa only [shown_tag, jText_shown] using this)
    | (have := h.doi; simpa only [isPubId_shown, shown_text, orEmpty] using this)
    | (have := h.pii; simpa only [isPubId_shown, shown_text, orEmpty] using this)
    | (have := h.pmid; simpa only [isPubId_shown, shown_text, orEmpty] using this)
    | (have := h.pmcid; simpa only [isPubId_shown, shown_text, orEmpty] using this)
    | (have := h.url; simpa only [isPubId_shown] using this)
    | (have := h.oneUrl; simpa only [shown_tag, shown_text, orEmpty] using this)
    | (have := h.link; simpa only [shown_tag, shown_text, orEmpty] using this)
    | (have := h.href; simpa only [shown_tag, shown_attrs] using this)

theorem notIn_shown {find : Str → Except Err (Option (Nat × Nat))} {b : Bool} {e : JNode} : NotIn find b (shown e) ↔ NotIn find b e := by
  unfold NotIn
  simp only [shown_text, shown_children, List.forall_mem_map, shown_tail, shown_tag, orEmpty]

theorem nothingToAdd_shown {env : JatsEnv} {n : JNode} : NothingToAdd env (shown n) ↔ NothingToAdd env n := by
  have key : ∀ (P : JNode → Prop), (∀ e ∈ jAlls (shown n).children, P e) ↔ ∀ e ∈ jAlls n.children, P (shown e) := by
    intro P
    rw [shown_children, jAlls_shown, List.forall_mem_map]
  constructor <;> intro h <;> constructor
  all_goals
    first
    | (have := h.pmid; simpa only [key, isPubId_shown, shown_tag, notIn_shown] using this)
    | (have := h.pmcid; simpa only [key, isPubId_shown, shown_tag, notIn_shown] using this)
    | (have := h.pii; simpa only [key, isPubId_shown, shown_tag, notIn_shown] using this)
    | (have := h.piiOther; simpa only [key, isPubId_shown, shown_tag, notIn_shown] using this)
    | (have := h.wos; simpa only [key, isPubId_shown, shown_tag, notIn_shown] using this)
    | (have := h.doi; simpa only [key, isPubId_shown, shown_tag, notIn_shown] using this)

theorem cleanReference_shown {env : JatsEnv} {n : JNode} : CleanReference env (shown n) ↔ CleanReference env n := by
  have hid : (jAll (shown n)).map (·.id) = (jAll n).map (·.id) := by
    rw [jAll_shown, List.map_map]
    exact List.map_congr_left (fun e _ => shown_id e)
  constructor
  · intro h
    refine ⟨hid ▸ h.ids, fun m hm l e r p hc hp => ?_, nothingToAdd_shown.1 h.add⟩
    refine cleanElement_shown.1 (h.elements (shown m) ?_ (l.map shown) (shown e) (r.map shown) p ?_ ?_)
    · rw [jAll_shown]; exact List.mem_map_of_mem hm
    · rw [shown_children, hc]; simp
    · rw [shown_text]; exact textBefore_shown.2 hp
  · intro h
    refine ⟨hid ▸ h.ids, fun m hm l e r p hc hp => ?_, nothingToAdd_shown.2 h.add⟩
    rw [jAll_shown] at hm
    obtain ⟨m', hm', rfl⟩ := List.mem_map.1 hm
    rw [shown_children] at hc
    obtain ⟨l', r1, e1, rfl, e3⟩ := List.map_eq_append_iff.1 hc
    obtain ⟨e', r', rfl, rfl, rfl⟩ := List.map_eq_cons_iff.1 e3
    rw [shown_text] at hp
    exact cleanElement_shown.2 (h.elements m' hm' l' e' r' p e1 (textBefore_shown.1 hp))

/-- Being clean depends on what is shown only. -/
theorem clean_of_shown {env : JatsEnv} {n n' : JNode} (h : CleanReference env n) (e : shown n' = shown n) : CleanReference env n' :=
  cleanReference_shown.1 (e ▸ cleanReference_shown.2 h)

/-! ### Changes of nothing -/

/-- A change of an element leaves what is shown. -/
def Leaves (f : JOp) (c : JCtx) : Prop :=
  ∀ t' cs' b, f c = .ok (t', cs', b) → orEmpty t' = orEmpty c.text ∧ cs'.map shown = (c.left ++ c.el :: c.right).map shown

theorem editAt_leaves (i : Nat) (f : JOp) (n : JNode)
    (hf : ∀ m ∈ jAll n, ∀ l e r, m.children = l ++ e :: r → e.id = i → Leaves f ⟨m.text, l, e, r⟩) :
    ∀ n' b, editAt i f n = .ok (n', b) → shown n' = shown n := by
  refine JNode.rec
    (motive_1 := fun n => (∀ m ∈ jAll n, ∀ l e r, m.children = l ++ e :: r → e.id = i → Leaves f ⟨m.text, l, e, r⟩) →
      ∀ n' b, editAt i f n = .ok (n', b) → shown n' = shown n)
    (motive_2 := fun ns => (∀ m ∈ jAlls ns, ∀ l e r, m.children = l ++ e :: r → e.id = i → Leaves f ⟨m.text, l, e, r⟩) →
      ∀ ns' b, editAts i f ns = .ok (ns', b) → ns'.map shown = ns.map shown) ?_ ?_ ?_ n hf
  · intro j g a t cs tl ih hf n' b h
    unfold editAt at h
    cases hs : splitAtId i cs with
    | some p =>
      obtain ⟨l, e, r⟩ := p
      obtain ⟨h1, h2⟩ := splitAtId_spec hs
      have hl := hf (.mk j g a t cs tl) (by rw [jAll_eq]; exact List.mem_cons_self) l e r h1 h2
      simp only [hs] at h
      cases hx : f ⟨t, l, e, r⟩ with
      | error x => rw [hx] at h; cases h
      | ok q =>
        obtain ⟨t', cs', b'⟩ := q
        rw [hx] at h
        cases h
        obtain ⟨e1, e2⟩ := hl t' cs' _ hx
        refine shown_ext rfl rfl rfl e1 ?_ rfl
        show cs'.map shown = cs.map shown
        rw [h1]
        exact e2
    | none =>
      simp only [hs] at h
      cases hx : editAts i f cs with
      | error x => rw [hx] at h; cases h
      | ok q =>
        obtain ⟨cs', b'⟩ := q
        rw [hx] at h
        cases h
        refine shown_ext rfl rfl rfl rfl ?_ rfl
        exact ih (fun m hm => hf m (by rw [jAll_eq]; exact List.mem_cons_of_mem _ hm)) cs' _ hx
  · intro _ ns' b h
    cases h; rfl
  · intro n ns ih1 ih2 hf ns' b h
    have hmem : jAlls (n :: ns) = jAll n ++ jAlls ns := rfl
    rw [hmem] at hf
    unfold editAts at h
    cases hx : editAt i f n with
    | error x => rw [hx] at h; cases h
    | ok q =>
      obtain ⟨n1, b1⟩ := q
      rw [hx] at h
      cases hy : editAts i f ns with
      | error x => rw [hy] at h; cases h
      | ok q =>
        obtain ⟨ns1, b2⟩ := q
        rw [hy] at h
        cases h
        rw [List.map_cons, List.map_cons, ih1 (fun m hm => hf m (List.mem_append_left _ hm)) n1 b1 hx,
          ih2 (fun m hm => hf m (List.mem_append_right _ hm)) ns1 b2 hy]

theorem shown_setTail {n : JNode} {t : Option Str} (h : orEmpty t = orEmpty n.tail) : shown (n.setTail t) = shown n :=
  shown_ext rfl rfl rfl rfl rfl h

theorem addToPrevious_leaves (t : Option Str) (l : List JNode) :
    orEmpty (addToPrevious t l []).1 = orEmpty t ∧ (addToPrevious t l []).2.map shown = l.map shown := by
  unfold addToPrevious setPreviousText previousText
  cases hl : l.getLast? with
  | none => simp [orEmpty_eq]
  | some e =>
    refine ⟨rfl, ?_⟩
    have hne : l = l.dropLast ++ [e] := by
      have h0 : l ≠ [] := by intro h; subst h; cases hl
      rw [List.getLast?_eq_some_getLast h0] at hl
      cases hl
      exact (List.dropLast_concat_getLast h0).symm
    conv => rhs; rw [hne]
    simp only [List.map_append, List.map_cons, List.map_nil]
    rw [shown_setTail (by simp [orEmpty_eq])]

theorem sliceStr_whole (s : Str) : sliceStr s 0 s.length = s := by simp [sliceStr]

theorem leaves_change {find : Str → Except Err (Option (Nat × Nat))} {c : JCtx} (h : WholeText find (orEmpty c.el.text)) :
    Leaves (changeOp find) c := by
  intro t' cs' b hx
  unfold changeOp at hx
  cases ht : c.el.text with
  | none => simp only [ht] at hx; cases hx; exact ⟨rfl, rfl⟩
  | some s =>
    rw [ht] at h
    have h : find s = .ok (some (0, s.length)) := h
    simp only [ht, h] at hx
    cases hx
    obtain ⟨e1, e2⟩ := addToPrevious_leaves c.text c.left
    refine ⟨e1, ?_⟩
    rw [List.take_zero, List.drop_length, sliceStr_whole]
    rw [List.map_append, e2, List.map_append, List.map_cons, List.map_cons]
    congr 2
    exact shown_ext rfl rfl rfl (by rw [ht]; rfl) rfl rfl

theorem set_same {β : Type} (d : Dict β) (k : Str) (v : β) (h : d.get? k = some v) : d.set k v = d := by
  induction d with
  | nil => cases h
  | cons p d ih =>
    obtain ⟨k', v'⟩ := p
    unfold Dict.get? at h
    unfold Dict.set
    split at h
    · next e => cases h; rw [if_pos e]
    · next e => rw [if_neg e, ih h]

theorem leaves_same {f : JOp} {c : JCtx} (h : ∀ t' cs' b, f c = .ok (t', cs', b) → t' = c.text ∧ cs' = c.left ++ c.el :: c.right) :
    Leaves f c := by
  intro t' cs' b hx
  obtain ⟨rfl, rfl⟩ := h t' cs' b hx
  exact ⟨rfl, rfl⟩

theorem leaves_lower {env : JatsEnv} {c : JCtx}
    (h : ∀ type, c.el.attrs.get? c!"pub-id-type" = some type → env.lower type ∈ knownPubIdTypes → env.lower type = type) :
    Leaves (lowerTypeOp env) c := by
  refine leaves_same (fun t' cs' b hx => ?_)
  unfold lowerTypeOp at hx
  cases hx
  refine ⟨rfl, ?_⟩
  congr 2
  split
  · next hc =>
    rw [Bool.and_eq_true] at hc
    cases ht : c.el.attrs.get? c!"pub-id-type" with
    | none => rw [ht] at hc; exact absurd hc.1 (by decide)
    | some type =>
      rw [ht] at hc
      have e := h type ht (of_decide_eq_true hc.2)
      show c.el.setAttrs (c.el.attrs.set c!"pub-id-type" (env.lower type)) = c.el
      rw [e, set_same _ _ _ ht]
      cases c.el; rfl
  · rfl

theorem findExtLink_whole {env : JatsEnv} {s : Str}
    (h : strIn c!"doi.org" s = true → env.doiExtLink s = none ∨ env.doiExtLink s = some s.length) : findExtLink env s = (0, s.length) := by
  unfold findExtLink
  split
  · next hd =>
    rcases h hd with e | e <;> rw [e] <;> rfl
  · rfl

theorem leaves_href {env : JatsEnv} {c : JCtx}
    (h : ∀ x, c.el.attrs.get? xlinkHref = some x → strIn c!"doi.org" x = true → env.doiExtLink x = none ∨ env.doiExtLink x = some x.length) :
    Leaves (linkHrefOp env) c := by
  refine leaves_same (fun t' cs' b hx => ?_)
  unfold linkHrefOp at hx
  cases hx
  refine ⟨rfl, ?_⟩
  congr 2
  split
  · next hc =>
    cases ht : c.el.attrs.get? xlinkHref with
    | none => rw [ht] at hc; exact absurd hc (by decide)
    | some x =>
      show c.el.setAttrs (c.el.attrs.set xlinkHref (sliceStr x (findExtLink env x).1 (findExtLink env x).2)) = c.el
      rw [findExtLink_whole (h x ht)]
      show c.el.setAttrs (c.el.attrs.set xlinkHref (sliceStr x 0 x.length)) = c.el
      rw [sliceStr_whole, set_same _ _ _ ht]
      cases c.el; rfl
  · rfl

theorem leaves_split {env : JatsEnv} {fresh : Nat} {c : JCtx} (h : (splitUrl (orEmpty c.el.text)).length ≤ 1) :
    Leaves (splitLinkOp env fresh) c := by
  refine leaves_same (fun t' cs' b hx => ?_)
  unfold splitLinkOp at hx
  generalize splitUrl (orEmpty c.el.text) = hrefs at h hx
  dsimp only at hx
  split at hx
  · cases hx; exact ⟨rfl, rfl⟩
  · split at hx
    · cases hx; exact ⟨rfl, rfl⟩
    · cases hx
      refine ⟨rfl, ?_⟩
      rcases hrefs with _ | ⟨x, _ | ⟨y, hs⟩⟩
      · simp
      · simp
      · simp at h

theorem previousText_before (t : Option Str) (l : List JNode) : TextBefore t l (orEmpty (previousText t l)) := by
  unfold previousText
  cases hl : l.getLast? with
  | none => exact .inl ⟨List.getLast?_eq_none_iff.1 hl, rfl⟩
  | some e =>
    have h0 : l ≠ [] := by intro h; subst h; cases hl
    rw [List.getLast?_eq_some_getLast h0] at hl
    cases hl
    exact .inr ⟨l.dropLast, _, (List.dropLast_concat_getLast h0).symm, rfl⟩

theorem leaves_doiLink {env : JatsEnv} {fresh : Nat} {c : JCtx} (h : env.doiUrlPrefix (orEmpty (previousText c.text c.left)) = none) :
    Leaves (doiLinkOp env fresh) c := by
  refine leaves_same (fun t' cs' b hx => ?_)
  unfold doiLinkOp at hx
  cases hp : previousText c.text c.left with
  | none => rw [hp] at hx; cases hx
  | some p =>
    rw [hp] at h hx
    have h : env.doiUrlPrefix p = none := h
    simp only [h] at hx
    cases hx
    exact ⟨rfl, rfl⟩

theorem hasSurrounding_false {x : Char} {s : Str} (k : Nat) (h : x ∉ ['"', '‘', '“']) : hasSurroundingQuotes (x :: s) 0 k = false := by
  unfold hasSurroundingQuotes quotePairs
  simp only [List.mem_cons, List.not_mem_nil, or_false, not_or] at h
  simp [h]

theorem leaves_titleQuotes {c : JCtx} (h1 : ∀ x s, jText c.el = x :: s → x ∉ ['"', '‘', '“'])
    (h2 : ∀ x s, jText c.el = s ++ [x] → x ≠ ',' ∧ x ≠ ' ') : Leaves titleQuotesOp c := by
  have hq : quotesOp c = c := by
    unfold quotesOp
    cases ht : jText c.el with
    | nil => rfl
    | cons x s =>
      have hx := h1 x s ht
      simp only [hasSurrounding_false _ hx]
      have hf : rightByLeftQuote.find? (fun p => p.1 = x) = none := by
        simp only [List.mem_cons, List.not_mem_nil, or_false, not_or] at hx
        rw [List.find?_eq_none]
        unfold rightByLeftQuote
        intro p hp
        simp only [List.mem_cons, List.not_mem_nil, or_false] at hp
        rcases hp with rfl | rfl | rfl <;> simp <;> intro h <;> simp [← h] at hx
      rw [hf]
      simp
  have hc : commaOp c = c := by
    unfold commaOp rstripOf
    have : (jText c.el).reverse.dropWhile (fun x => x = ',' || x = ' ') = (jText c.el).reverse := by
      cases hr : (jText c.el).reverse with
      | nil => rfl
      | cons x s =>
        have hx := h2 x s.reverse (by rw [← List.reverse_reverse (jText c.el), hr, List.reverse_cons])
        rw [List.dropWhile_cons_of_neg]
        simp [hx]
    simp only [this, List.reverse_reverse]
    simp
  refine leaves_same (fun t' cs' b hx => ?_)
  unfold titleQuotesOp at hx
  rw [hq, hc] at hx
  cases hx
  exact ⟨rfl, rfl⟩

theorem truthy_iff_text (t : Option Str) : truthy t = true ↔ orEmpty t ≠ [] := by
  cases t with
  | none => simp [truthy, orEmpty]
  | some s => cases s <;> simp [truthy, orEmpty]

theorem addToTails_none {find : Str → Except Err (Option (Nat × Nat))} {create : Str → Option Str → JNode} (cs : List JNode)
    (h : ∀ c ∈ cs, orEmpty c.tail ≠ [] → find (orEmpty c.tail) = .ok none) : addToTails find create cs = .ok none := by
  induction cs with
  | nil => rfl
  | cons n ns ih =>
    unfold addToTails
    have e : (if truthy n.tail = true then find (orEmpty n.tail) else .ok none) = .ok none := by
      split
      · next ht => exact h n List.mem_cons_self ((truthy_iff_text _).1 ht)
      · rfl
    rw [e, ih (fun c hc => h c (List.mem_cons_of_mem _ hc))]

theorem addToComments_same {find : Str → Except Err (Option (Nat × Nat))} {create : Str → Option Str → JNode} (cs : List JNode)
    (h : ∀ c ∈ cs, c.tag = c!"comment" → orEmpty c.text ≠ [] → find (orEmpty c.text) = .ok none) : addToComments find create cs = .ok cs := by
  induction cs with
  | nil => rfl
  | cons n ns ih =>
    unfold addToComments
    have e : (if n.tag = c!"comment" ∧ truthy n.text = true then find (orEmpty n.text) else .ok none) = .ok none := by
      split
      · next ht => exact h n List.mem_cons_self ht.1 ((truthy_iff_text _).1 ht.2)
      · rfl
    rw [e, ih (fun c hc => h c (List.mem_cons_of_mem _ hc))]

theorem leaves_add {find : Str → Except Err (Option (Nat × Nat))} {create : Str → Option Str → JNode} {pc : Bool} {c : JCtx}
    (h : NotIn find pc c.el) : Leaves (addOp find create pc) c := by
  refine leaves_same (fun t' cs' b hx => ?_)
  unfold addOp addAnnotation at hx
  have e : (if truthy c.el.text = true then find (orEmpty c.el.text) else .ok none) = .ok none := by
    split
    · next ht => exact h.1 ((truthy_iff_text _).1 ht)
    · rfl
  rw [e, addToTails_none _ h.2.1] at hx
  cases pc with
  | false => cases hx; exact ⟨rfl, rfl⟩
  | true =>
    simp only [if_true, addToComments_same _ (h.2.2 rfl)] at hx
    cases hx
    refine ⟨rfl, ?_⟩
    cases c.el; rfl

end Verif
