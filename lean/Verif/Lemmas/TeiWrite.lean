import Verif.Spec.TeiWrite
import Verif.Lemmas.TeiLoad

namespace Verif
open Spec (Item itemsElem itemsList textAt)

/-! ### The content of open elements -/

/-- Address of the current element below the given ancestors (innermost first). -/
def addrOf : List Frame → List Nat
  | [] => []
  | p :: ps => addrOf ps ++ [p.children.length]

/-- Tags and attributes of the current element and its ancestors below the root. -/
def chainOf (cur : Frame) : List Frame → List (Str × Dict Str)
  | [] => []
  | p :: ps => chainOf p ps ++ [(cur.tag, cur.attrib)]

def Frame.items (addr : List Nat) (chain : List (Str × Dict Str)) (f : Frame) : List Item :=
  textAt addr chain (orEmpty f.text) ++ itemsList addr chain 0 f.children

def brk (addr : List Nat) (chain : List (Str × Dict Str)) (tag : Str) : List Item :=
  if tag = c!"lb" then [⟨addr, chain, none⟩] else []

/-- Everything written so far, in document order. -/
def wItems : Frame → List Frame → List Item
  | cur, [] => cur.items [] []
  | cur, p :: ps =>
    wItems p ps ++ brk (addrOf ps) (chainOf p ps) cur.tag ++
      cur.items (addrOf (p :: ps)) (chainOf cur (p :: ps))

namespace Writer
def addr (w : Writer) : List Nat := addrOf w.parents
def chain (w : Writer) : List (Str × Dict Str) := chainOf w.cur w.parents
def items (w : Writer) : List Item := wItems w.cur w.parents
end Writer

theorem itemsList_append (addr : List Nat) (chain : List (Str × Dict Str)) (n : Nat)
    (es fs : List Elem) :
    itemsList addr chain n (es ++ fs) = itemsList addr chain n es ++ itemsList addr chain (n + es.length) fs := by
  induction es generalizing n with
  | nil => simp [itemsList]
  | cons e es ih =>
    obtain ⟨t, a, x, cs, tl⟩ := e
    simp only [List.cons_append, itemsList, ih, List.length_cons, List.append_assoc]
    rw [show n + 1 + es.length = n + (es.length + 1) by omega]

theorem textAt_append (addr : List Nat) (chain : List (Str × Dict Str)) (s t : Str) :
    textAt addr chain (s ++ t) = textAt addr chain s ++ textAt addr chain t := by
  simp [textAt]

@[simp] theorem textAt_nil (addr : List Nat) (chain : List (Str × Dict Str)) :
    textAt addr chain [] = [] := rfl

theorem frame_items_appendText (addr : List Nat) (chain : List (Str × Dict Str)) (f : Frame) (s : Str) :
    (f.appendText s).items addr chain = f.items addr chain ++ textAt addr chain s := by
  unfold Frame.appendText
  split
  · next h =>
    have : s = [] := by simpa using h
    subst this; simp
  · split
    · next c hc =>
      obtain ⟨init, hi⟩ := List.getLast?_eq_some_iff.1 hc
      obtain ⟨t, a, x, cs, tl⟩ := c
      simp only [Frame.items, hi, List.dropLast_concat, itemsList_append, itemsList, Elem.withTail,
        Elem.tail]
      simp [orEmpty, textAt_append, itemsElem]
    · next hc =>
      have : f.children = [] := by simpa using hc
      simp [Frame.items, this, itemsList, orEmpty, textAt_append]

theorem frame_appendText_tag (f : Frame) (s : Str) :
    (f.appendText s).tag = f.tag ∧ (f.appendText s).attrib = f.attrib := by
  unfold Frame.appendText; split
  · exact ⟨rfl, rfl⟩
  · split <;> exact ⟨rfl, rfl⟩

theorem chainOf_congr {f g : Frame} (h : f.tag = g.tag) (h' : f.attrib = g.attrib) (ps : List Frame) :
    chainOf f ps = chainOf g ps := by
  cases ps <;> simp [chainOf, h, h']

theorem writer_items_appendText (w : Writer) (s : Str) :
    (w.appendText s).items = w.items ++ textAt w.addr w.chain s := by
  obtain ⟨cur, ps, path⟩ := w
  have ht := frame_appendText_tag cur s
  simp only [Writer.items, Writer.appendText, Writer.addr, Writer.chain]
  cases ps with
  | nil => simp [wItems, frame_items_appendText, addrOf, chainOf]
  | cons p ps =>
    simp only [wItems, frame_items_appendText, ht.1, List.append_assoc]
    rw [chainOf_congr ht.1 ht.2]

theorem writer_appendText_place (w : Writer) (s : Str) :
    (w.appendText s).addr = w.addr ∧ (w.appendText s).chain = w.chain ∧
      (w.appendText s).path = w.path ∧ (w.appendText s).parents = w.parents :=
  ⟨rfl, chainOf_congr (frame_appendText_tag _ _).1 (frame_appendText_tag _ _).2 _, rfl, rfl⟩

theorem frame_items_append (addr : List Nat) (chain : List (Str × Dict Str)) (f : Frame) (e : Elem) :
    (f.append e).items addr chain = f.items addr chain ++ itemsList addr chain f.children.length [e] := by
  simp [Frame.items, Frame.append, itemsList_append]

theorem wItems_append (cur : Frame) (ps : List Frame) (e : Elem) :
    wItems (cur.append e) ps =
      wItems cur ps ++ itemsList (addrOf ps) (chainOf cur ps) cur.children.length [e] := by
  cases ps with
  | nil => simp [wItems, frame_items_append, addrOf, chainOf]
  | cons p ps =>
    simp only [wItems, frame_items_append, List.append_assoc]
    rw [chainOf_congr (f := cur.append e) (g := cur) rfl rfl]
    rfl

theorem writer_items_lb (w : Writer) :
    (w.append lbElem).items = w.items ++ [⟨w.addr, w.chain, none⟩] := by
  simp only [Writer.items, Writer.append, wItems_append, Writer.addr, Writer.chain]
  simp [itemsList, lbElem, lbTag, itemsElem, orEmpty]

theorem writer_append_place (w : Writer) (e : Elem) :
    (w.append e).addr = w.addr ∧ (w.append e).chain = w.chain ∧
      (w.append e).path = w.path ∧ (w.append e).parents = w.parents :=
  ⟨rfl, chainOf_congr (f := w.cur.append e) (g := w.cur) rfl rfl _, rfl, rfl⟩

theorem leave_items (w : Writer) : w.leave.items = w.items := by
  obtain ⟨cur, ps, path⟩ := w
  cases ps with
  | nil => rfl
  | cons p ps =>
    simp only [Writer.leave, Writer.items, wItems_append]
    simp [wItems, itemsList, Frame.close, brk, Frame.items, itemsElem, addrOf, chainOf, orEmpty]

theorem leave_addr (w : Writer) : w.leave.addr = w.addr.dropLast := by
  obtain ⟨cur, ps, path⟩ := w
  cases ps <;> simp [Writer.leave, Writer.addr, addrOf]

theorem leave_chain (w : Writer) : w.leave.chain = w.chain.dropLast := by
  obtain ⟨cur, ps, path⟩ := w
  cases ps with
  | nil => rfl
  | cons p ps =>
    simp only [Writer.leave, Writer.chain, chainOf, List.dropLast_concat]
    exact chainOf_congr (f := p.append cur.close) (g := p) rfl rfl _

theorem leave_path (w : Writer) : w.leave.path = w.path := by
  obtain ⟨cur, ps, path⟩ := w
  cases ps <;> rfl

theorem leave_parents (w : Writer) : w.leave.parents = w.parents.drop 1 := by
  obtain ⟨cur, ps, path⟩ := w
  cases ps <;> rfl

theorem addrOf_length (ps : List Frame) : (addrOf ps).length = ps.length := by
  induction ps with
  | nil => rfl
  | cons p ps ih => simp [addrOf, ih]

theorem chainOf_length (f : Frame) (ps : List Frame) : (chainOf f ps).length = ps.length := by
  induction ps generalizing f with
  | nil => rfl
  | cons p ps ih => simp [chainOf, ih]

theorem leaveN_spec (n : Nat) (w : Writer) :
    (w.leaveN n).items = w.items ∧ (w.leaveN n).addr = w.addr.take (w.parents.length - n) ∧
    (w.leaveN n).chain = w.chain.take (w.parents.length - n) ∧ (w.leaveN n).path = w.path ∧
    (w.leaveN n).parents = w.parents.drop n := by
  induction n generalizing w with
  | zero =>
    have h1 := addrOf_length w.parents
    have h2 := chainOf_length w.cur w.parents
    refine ⟨rfl, ?_, ?_, rfl, rfl⟩
    · simp only [Writer.leaveN, Nat.sub_zero]
      rw [List.take_of_length_le]; simp [Writer.addr, h1]
    · simp only [Writer.leaveN, Nat.sub_zero]
      rw [List.take_of_length_le]; simp [Writer.chain, h2]
  | succ n ih =>
    obtain ⟨i1, i2, i3, i4, i5⟩ := ih w.leave
    have h1 : w.addr.length = w.parents.length := addrOf_length w.parents
    have h2 : w.chain.length = w.parents.length := chainOf_length w.cur w.parents
    simp only [Writer.leaveN]
    rw [i1, i2, i3, i4, i5, leave_items, leave_addr, leave_chain, leave_path, leave_parents]
    refine ⟨rfl, ?_, ?_, rfl, ?_⟩
    · rw [List.dropLast_eq_take, List.take_take, h1, List.length_drop]
      congr 1; omega
    · rw [List.dropLast_eq_take, List.take_take, h2, List.length_drop]
      congr 1; omega
    · rw [List.drop_drop]; congr 1; omega

/-! ### Freshness of addresses -/

theorem mem_textAt {addr : List Nat} {chain : List (Str × Dict Str)} {s : Str} {it : Item}
    (h : it ∈ textAt addr chain s) : it.addr = addr := by
  obtain ⟨c, _, rfl⟩ := List.mem_map.1 h; rfl

mutual
theorem itemsElem_addr (addr : List Nat) (chain : List (Str × Dict Str)) (e : Elem) (it : Item)
    (h : it ∈ itemsElem addr chain e) :
    it.addr = addr ∨ ∃ i r, it.addr = addr ++ i :: r ∧ i < e.children.length := by
  match e with
  | .mk t a x cs tl =>
    simp only [itemsElem, List.mem_append] at h
    rcases h with h | h
    · exact .inl (mem_textAt h)
    · rcases itemsList_addr addr chain 0 cs it h with h | ⟨i, r, h1, h2⟩
      · exact .inl h
      · exact .inr ⟨i, r, h1, by simpa [Elem.children] using h2.2⟩
theorem itemsList_addr (addr : List Nat) (chain : List (Str × Dict Str)) (n : Nat) (es : List Elem)
    (it : Item) (h : it ∈ itemsList addr chain n es) :
    it.addr = addr ∨ ∃ i r, it.addr = addr ++ i :: r ∧ n ≤ i ∧ i < n + es.length := by
  match es with
  | [] => simp [itemsList] at h
  | .mk t a x cs tl :: es =>
    simp only [itemsList, List.mem_append] at h
    rcases h with ((h | h) | h) | h
    · split at h
      · left; rw [List.mem_singleton.1 h]
      · simp at h
    · right
      rcases itemsElem_addr (addr ++ [n]) _ (.mk t a x cs tl) it h with h | ⟨i, r, h1, _⟩
      · exact ⟨n, [], by simp [h], by simp, by simp⟩
      · exact ⟨n, i :: r, by simp [h1], by simp, by simp⟩
    · exact .inl (mem_textAt h)
    · rcases itemsList_addr addr chain (n + 1) es it h with h | ⟨i, r, h1, h2, h3⟩
      · exact .inl h
      · exact .inr ⟨i, r, h1, by omega, by simp; omega⟩
end

theorem prefix_concat_of {a b : List Nat} {n : Nat} (h : a ++ [n] <+: b) :
    ∃ r, b = a ++ n :: r := by
  obtain ⟨r, rfl⟩ := h; exact ⟨r, by simp⟩

theorem frame_items_addr (addr : List Nat) (chain : List (Str × Dict Str)) (f : Frame) (it : Item)
    (h : it ∈ f.items addr chain) : ¬ (addr ++ [f.children.length]) <+: it.addr := by
  have h' : it ∈ itemsElem addr chain f.close := by
    simpa [Frame.items, Frame.close, itemsElem] using h
  intro hp
  obtain ⟨r, hr⟩ := prefix_concat_of hp
  rcases itemsElem_addr addr chain _ it h' with h | ⟨i, r', h1, h2⟩
  · rw [h] at hr
    have := congrArg List.length hr
    simp at this
  · rw [h1] at hr
    have := List.append_cancel_left hr
    simp only [List.cons.injEq] at this
    rw [this.1] at h2
    simp [Frame.close, Elem.children] at h2

theorem wItems_fresh (cur : Frame) (ps : List Frame) (it : Item) (h : it ∈ wItems cur ps) :
    ¬ (addrOf ps ++ [cur.children.length]) <+: it.addr := by
  induction ps generalizing cur with
  | nil => exact frame_items_addr [] [] cur it h
  | cons p ps ih =>
    simp only [wItems, List.mem_append] at h
    rcases h with (h | h) | h
    · intro hp
      exact ih p h ((List.prefix_append _ _).trans hp)
    · unfold brk at h
      split at h
      · rw [List.mem_singleton.1 h]
        intro hp
        have := hp.length_le
        simp [addrOf] at this
        omega
      · simp at h
    · exact frame_items_addr _ _ _ it h

/-! ### Moving to a path -/

/-- The path of the writer describes its open elements. -/
def Agree (w : Writer) : Prop := w.path.map parseTagExpression = w.chain.map .ok

theorem Agree.length {w : Writer} (h : Agree w) : w.path.length = w.parents.length := by
  have := congrArg List.length h
  simpa [Writer.chain, chainOf_length] using this

/-- No fragment of the path is a line break element. -/
def NoLb (path : List Str) : Prop :=
  ∀ f ∈ path, ∀ t a, parseTagExpression f = .ok (t, a) → t ≠ c!"lb"

theorem enterPath_spec (ok : Str → Dict Str → Bool) (fs : List Str) (w w' : Writer)
    (h : enterPath ok fs w = .ok w') (ha : Agree w) (hlb : NoLb fs) :
    w'.items = w.items ∧ w'.path = w.path ++ fs ∧ Agree w' ∧ w.addr <+: w'.addr ∧
    (fs ≠ [] → (w.addr ++ [w.cur.children.length]) <+: w'.addr) := by
  induction fs generalizing w with
  | nil => simp only [enterPath] at h; cases h; simp [ha]
  | cons f fs ih =>
    simp only [enterPath] at h
    split at h
    · cases h
    · next tag attrib hp =>
      split at h
      · have hlt : tag ≠ c!"lb" := hlb f (by simp) tag attrib hp
        obtain ⟨i1, i2, i3, i4, i5⟩ := ih _ h (by
          simp only [Agree, Writer.chain, chainOf, List.map_append, List.map_cons, List.map_nil, hp] at ha ⊢
          rw [ha]) (fun g hg => hlb g (by simp [hg]))
        have e1 : Writer.addr { cur := ⟨tag, attrib, none, []⟩, parents := w.cur :: w.parents, path := w.path ++ [f] }
            = w.addr ++ [w.cur.children.length] := rfl
        rw [e1] at i4 i5
        refine ⟨?_, ?_, i3, (List.prefix_append _ _).trans i4, fun _ => i4⟩
        · rw [i1]
          simp [Writer.items, wItems, brk, hlt, Frame.items, orEmpty, itemsList]
        · rw [i2]; simp
      · cases h

theorem commonPath_prefix_left (a b : List Str) : commonPath a b <+: a := by
  induction a generalizing b with
  | nil => simp [commonPath]
  | cons x a ih =>
    cases b with
    | nil => simp [commonPath]
    | cons y b =>
      simp only [commonPath]
      split
      · exact (List.prefix_cons_inj x).2 (ih b)
      · simp

theorem commonPath_prefix_right (a b : List Str) : commonPath a b <+: b := by
  induction a generalizing b with
  | nil => simp [commonPath]
  | cons x a ih =>
    cases b with
    | nil => simp [commonPath]
    | cons y b =>
      simp only [commonPath]
      split
      · next h => subst h; exact (List.prefix_cons_inj x).2 (ih b)
      · simp

theorem prefix_commonPath {p a b : List Str} (ha : p <+: a) (hb : p <+: b) : p <+: commonPath a b := by
  induction p generalizing a b with
  | nil => simp
  | cons x p ih =>
    obtain ⟨ra, rfl⟩ := ha
    obtain ⟨rb, rfl⟩ := hb
    simp only [List.cons_append, commonPath, if_true]
    exact (List.prefix_cons_inj x).2 (ih (List.prefix_append _ _) (List.prefix_append _ _))

theorem commonPath_eq_left {a b : List Str} (h : a <+: b) : commonPath a b = a := by
  have h1 := prefix_commonPath (List.prefix_refl a) h
  exact (List.IsPrefix.eq_of_length_le h1 (commonPath_prefix_left a b).length_le).symm

theorem commonPath_self (a : List Str) : commonPath a a = a := commonPath_eq_left (List.prefix_refl a)

theorem pathStartsWith_iff (a b : List Str) : pathStartsWith a b = true ↔ a <+: b := by
  unfold pathStartsWith
  rw [decide_eq_true_iff]
  constructor
  · intro h
    have := commonPath_prefix_right a b
    rwa [h] at this
  · exact commonPath_eq_left

theorem NoLb.sub {p q : List Str} (h : NoLb q) (hs : p ⊆ q) : NoLb p := fun f hf => h f (hs hf)

theorem requirePath_spec (ok : Str → Dict Str → Bool) (req : List Str) (w w' : Writer)
    (h : requirePath ok req w = .ok w') (ha : Agree w) (hlb : NoLb req) :
    w'.items = w.items ∧ w'.path = req ∧ Agree w' ∧
    (∀ k, k ≤ (commonPath w.path req).length → w'.addr.take k = w.addr.take k) ∧
    (∀ k, (commonPath w.path req).length < k → k ≤ req.length →
      ∀ it ∈ w.items, ¬ w'.addr.take k <+: it.addr) := by
  unfold requirePath at h
  split at h
  · next he =>
    cases h
    refine ⟨rfl, he.symm, ha, fun _ _ => rfl, ?_⟩
    intro k hk hk'
    rw [he, commonPath_self] at hk
    rw [he] at hk'
    omega
  · simp only at h
    generalize hc : commonPath w.path req = common at h
    have hc1 : common <+: w.path := hc ▸ commonPath_prefix_left _ _
    have hc2 : common <+: req := hc ▸ commonPath_prefix_right _ _
    have hlen := ha.length
    have hcl := hc1.length_le
    obtain ⟨l1, l2, l3, l4, l5⟩ := leaveN_spec (w.path.length - common.length) w
    generalize hw1 : w.leaveN (w.path.length - common.length) = w1 at h l1 l2 l3 l4 l5
    have hk : w.parents.length - (w.path.length - common.length) = common.length := by omega
    rw [hk] at l2 l3
    have hag : Agree { w1 with path := common } := by
      show common.map parseTagExpression = w1.chain.map .ok
      rw [l3, List.map_take, ← ha]
      rw [← List.map_take]
      congr 1
      exact List.prefix_iff_eq_take.1 hc1
    obtain ⟨e1, e2, e3, e4, e5⟩ := enterPath_spec ok _ _ w' h hag
      (hlb.sub (List.drop_subset _ _))
    have a1 : Writer.addr { w1 with path := common } = w1.addr := rfl
    have a2 : Writer.items { w1 with path := common } = w1.items := rfl
    rw [a1] at e4 e5
    rw [a2] at e1
    have hal : w1.addr.length = common.length := by
      have : w.addr.length = w.parents.length := addrOf_length _
      rw [l2, List.length_take]; omega
    refine ⟨e1.trans l1, ?_, e3, ?_, ?_⟩
    · rw [e2]
      have := List.prefix_iff_eq_append.1 hc2
      simpa using this
    · intro k hk
      have : w'.addr.take k = w1.addr.take k := by
        obtain ⟨r, hr⟩ := e4
        rw [← hr, List.take_append_of_le_length (by omega)]
      rw [this, l2, List.take_take]
      congr 1; omega
    · intro k hk1 hk2 it hit hp
      have hne : req.drop common.length ≠ [] := by
        intro hh
        have := congrArg List.length hh
        simp at this
        omega
      have h5 := e5 hne
      have hx : (w1.addr ++ [w1.cur.children.length]) <+: w'.addr.take k := by
        rw [List.prefix_take_iff]
        exact ⟨h5, by simp; omega⟩
      rw [← l1] at hit
      exact wItems_fresh w1.cur w1.parents it hit (hx.trans hp)

theorem requirePathOrBelow_spec (ok : Str → Dict Str → Bool) (req : List Str) (w w' : Writer)
    (h : requirePathOrBelow ok req w = .ok w') (ha : Agree w) (hlb : NoLb req) :
    w'.items = w.items ∧ w'.path = commonPath w.path req ∧ Agree w' ∧
    w'.addr = w.addr.take (commonPath w.path req).length := by
  have hpl := commonPath_prefix_left w.path req
  have hpr := commonPath_prefix_right w.path req
  obtain ⟨h1, h2, h3, h4, _⟩ := requirePath_spec ok _ w w' h ha (hlb.sub hpr.subset)
  refine ⟨h1, h2, h3, ?_⟩
  have hcc : commonPath w.path (commonPath w.path req) = commonPath w.path req := by
    have h1 := prefix_commonPath hpl (List.prefix_refl _)
    exact (List.IsPrefix.eq_of_length_le h1 (commonPath_prefix_right _ _).length_le).symm
  rw [hcc] at h4
  have := h4 _ (Nat.le_refl _)
  rw [← this]
  have hl : w'.addr.length = (commonPath w.path req).length := by
    have : w'.addr.length = w'.parents.length := addrOf_length _
    rw [this, ← h3.length, h2]
  rw [List.take_of_length_le (by omega)]

/-! ### Text only, without any assumption -/

/-- The characters of items. -/
def itemsText (l : List Item) : Str := l.filterMap (·.ch)

@[simp] theorem itemsText_append (a b : List Item) : itemsText (a ++ b) = itemsText a ++ itemsText b := by
  simp [itemsText]

@[simp] theorem itemsText_textAt (addr : List Nat) (chain : List (Str × Dict Str)) (s : Str) :
    itemsText (textAt addr chain s) = s := by
  induction s with
  | nil => rfl
  | cons c s ih => simpa [itemsText, textAt] using ih

theorem enterPath_text (ok : Str → Dict Str → Bool) (fs : List Str) (w w' : Writer)
    (h : enterPath ok fs w = .ok w') : itemsText w'.items = itemsText w.items := by
  induction fs generalizing w with
  | nil => simp only [enterPath] at h; cases h; rfl
  | cons f fs ih =>
    simp only [enterPath] at h
    split at h
    · cases h
    · next tag attrib hp =>
      split at h
      · rw [ih _ h]
        simp only [Writer.items, wItems, itemsText_append, Frame.items, orEmpty, itemsList]
        unfold brk
        split <;> simp [itemsText]
      · cases h

theorem requirePath_text (ok : Str → Dict Str → Bool) (req : List Str) (w w' : Writer)
    (h : requirePath ok req w = .ok w') : itemsText w'.items = itemsText w.items := by
  unfold requirePath at h
  split at h
  · cases h; rfl
  · rw [enterPath_text ok _ _ _ h]
    have := (leaveN_spec (w.path.length - (commonPath w.path req).length) w).1
    show itemsText (Writer.items _) = _
    rw [← this]; rfl

theorem flushPending_text (cfg : WriteCfg) (req : List Str) (ss : List Str) (w w' : Writer)
    (h : flushPending cfg req ss w = .ok w') :
    itemsText w'.items = itemsText w.items ++ ss.flatten := by
  induction ss generalizing w with
  | nil => simp only [flushPending] at h; cases h; simp
  | cons s ss ih =>
    simp only [flushPending] at h
    split at h
    · cases h
    · next w1 h1 =>
      rw [ih _ h, writer_items_appendText, itemsText_append, itemsText_textAt,
        requirePath_text _ _ _ _ h1]
      simp

theorem writeToken_text (cfg : WriteCfg) (st st' : WState) (t : Tok)
    (h : writeToken cfg st t = .ok st') :
    itemsText st'.w.items ++ st'.pending.flatten = itemsText st.w.items ++ st.pending.flatten ++ t.text := by
  unfold writeToken at h
  simp only at h
  split at h
  · cases h; simp
  · split at h
    · cases h
    · next w1 h1 =>
      split at h
      · cases h
      · next w2 h2 =>
        split at h
        · cases h
        · next w3 h3 =>
          cases h
          have e1 : itemsText w1.items = itemsText st.w.items := by
            split at h1
            · exact requirePath_text _ _ _ _ h1
            · split at h1
              · exact requirePath_text _ _ _ _ h1
              · split at h1
                · exact requirePath_text _ _ _ _ h1
                · cases h1; rfl
          simp only [writer_items_appendText, itemsText_append, itemsText_textAt,
            requirePath_text _ _ _ _ h3, flushPending_text _ _ _ _ _ h2, e1, List.flatten_nil,
            List.append_nil]

theorem writeTokens_text (cfg : WriteCfg) (ts : List Tok) (st st' : WState)
    (h : writeTokens cfg st ts = .ok st') :
    itemsText st'.w.items ++ st'.pending.flatten =
      itemsText st.w.items ++ st.pending.flatten ++ ts.flatMap (·.text) := by
  induction ts generalizing st with
  | nil => simp only [writeTokens] at h; cases h; simp
  | cons t ts ih =>
    simp only [writeTokens] at h
    split at h
    · cases h
    · next st1 h1 =>
      rw [ih _ h, writeToken_text cfg st st1 t h1]; simp

theorem writeLines_text (cfg : WriteCfg) (ls : List (List Tok)) (first : Bool) (st st' : WState)
    (h : writeLines cfg first st ls = .ok st') :
    itemsText st'.w.items ++ st'.pending.flatten =
      itemsText st.w.items ++ st.pending.flatten ++ ls.flatten.flatMap (·.text) := by
  induction ls generalizing st first with
  | nil => simp only [writeLines] at h; cases h; simp
  | cons l ls ih =>
    simp only [writeLines] at h
    split at h
    · cases h
    · next st1 h1 =>
      rw [ih _ _ h, writeTokens_text cfg l _ st1 h1]
      have : itemsText (if first = true then st else { st with w := st.w.append lbElem }).w.items =
          itemsText st.w.items := by
        split
        · rfl
        · simp [writer_items_lb, itemsText]
      rw [this]
      have : (if first = true then st else { st with w := st.w.append lbElem }).pending = st.pending := by
        split <;> rfl
      rw [this]
      simp

theorem finish_items (w : Writer) : w.finish.items [] [] = w.items := by
  obtain ⟨h1, _, _, _, h5⟩ := leaveN_spec w.parents.length w
  rw [List.drop_length] at h5
  unfold Writer.finish
  rw [← h1, Writer.items, h5]
  rfl

mutual
theorem itemsElem_text (addr : List Nat) (chain : List (Str × Dict Str)) (e : Elem) :
    itemsText (itemsElem addr chain e) = itertext e := by
  match e with
  | .mk t a x cs tl => simp [itemsElem, itertext, itemsList_text addr chain 0 cs]
theorem itemsList_text (addr : List Nat) (chain : List (Str × Dict Str)) (n : Nat) (es : List Elem) :
    itemsText (itemsList addr chain n es) = itertextList es := by
  match es with
  | [] => rfl
  | .mk t a x cs tl :: es =>
    simp only [itemsList, itertextList, itemsText_append, itemsText_textAt,
      itemsElem_text (addr ++ [n]) _ (.mk t a x cs tl), itemsList_text addr chain (n + 1) es]
    split <;> simp [itemsText]
end

mutual
theorem itemsElem_flow (addr : List Nat) (chain : List (Str × Dict Str)) (e : Elem) :
    (itemsElem addr chain e).map (·.ch) = Spec.flow e := by
  match e with
  | .mk t a x cs tl => simp [itemsElem, Spec.flow, itemsList_flow addr chain 0 cs, textAt, Spec.chars]
theorem itemsList_flow (addr : List Nat) (chain : List (Str × Dict Str)) (n : Nat) (es : List Elem) :
    (itemsList addr chain n es).map (·.ch) = Spec.flowList es := by
  match es with
  | [] => rfl
  | .mk t a x cs tl :: es =>
    simp only [itemsList, Spec.flowList, List.map_append,
      itemsElem_flow (addr ++ [n]) _ (.mk t a x cs tl), itemsList_flow addr chain (n + 1) es]
    simp only [textAt, Spec.chars]
    split <;> simp
end

theorem linesToTei_text (cfg : WriteCfg) (c f : Frame) (lines : List (List Tok))
    (h : linesToTei cfg c lines = .ok f) :
    itertext f.close = itertext c.close ++ lines.flatten.flatMap (·.text) := by
  unfold linesToTei at h
  split at h
  · cases h
  · next st hst =>
    split at h
    · cases h
    · next w hw =>
      cases h
      have h1 := writeLines_text cfg lines true _ st hst
      have h2 := flushPending_text cfg [] _ _ _ hw
      have h3 := congrArg itemsText (finish_items w)
      have e : ∀ g : Frame, itemsText (g.items [] []) = itertext g.close := by
        intro g
        have := itemsElem_text [] [] g.close
        simpa [Frame.items, Frame.close, itemsElem] using this
      rw [← e, h3, h2, h1]
      simp only [List.flatten_nil, List.append_nil]
      congr 1
      exact e c

end Verif
