/-
Loading a written element: the main tag of a character is the path of the outermost tagged element
around it (by the addresses of `Spec.items`).
-/
import Verif.Spec.Reload
import Verif.Lemmas.TeiPieces
import Verif.Lemmas.TeiLoad

namespace Verif
open Spec

/-! ### Segments by characters -/

/-- The element at an address directly contains a character that is not white space. -/
def directText (cc : CharClass) (all : List Item) (addr : List Nat) : Bool :=
  all.any (fun it => it.addr == addr && it.ch.any (fun c => !cc.isSpace c))

/-- The path of a chain of elements. -/
def chainPath (chain : List (Str × Dict Str)) : List Str := chain.map (fun p => component p.1 p.2)

/-- The element with depth `k` around an item is a tagged element. -/
def marked (cc : CharClass) (rp : List Str) (all : List Item) (it : Item) (k : Nat) : Bool :=
  directText cc all (it.addr.take k) || rp.contains (joinWith c!"/" (chainPath (it.chain.take k)))

/-- The depths from `d` on. -/
def depths (d n : Nat) : List Nat := (List.range' d (n + 1 - d))

/-- The path of the outermost tagged element with depth at least `d`. -/
def outerTag (cc : CharClass) (rp : List Str) (all : List Item) (d : Nat) (it : Item) : Option Str :=
  ((depths d it.addr.length).find? (marked cc rp all it)).map
    (fun k => joinWith c!"/" (chainPath (it.chain.take k)))

/-- The characters of items with a label. -/
def itemChars (g : Item → Option Str) (l : List Item) : List (Char × Option Str) :=
  l.filterMap (fun it => it.ch.map (fun c => (c, g it)))

/-- The characters of a segment with its tag. -/
def segChars (s : Option Str × List Str) : List (Char × Option Str) := s.2.flatten.map (fun c => (c, s.1))

theorem itemChars_append (g : Item → Option Str) (a b : List Item) :
    itemChars g (a ++ b) = itemChars g a ++ itemChars g b := List.filterMap_append

theorem itemChars_textAt (g : Item → Option Str) (addr : List Nat) (chain : List (Str × Dict Str)) (s : Str)
    (v : Option Str) (h : ∀ it, it.addr = addr → it.chain = chain → g it = v) :
    itemChars g (textAt addr chain s) = s.map (fun c => (c, v)) := by
  induction s with
  | nil => rfl
  | cons c s ih =>
    show (c, g ⟨addr, chain, some c⟩) :: itemChars g (textAt addr chain s) = _
    rw [ih, h _ rfl rfl]; rfl

theorem itemChars_const (g : Item → Option Str) (v : Option Str) (l : List Item)
    (h : ∀ it ∈ l, g it = v) : itemChars g l = (l.filterMap (·.ch)).map (fun c => (c, v)) := by
  induction l with
  | nil => rfl
  | cons it l ih =>
    have ih' := ih (fun x hx => h x (by simp [hx]))
    have h0 := h it (by simp)
    unfold itemChars at ih' ⊢
    cases hc : it.ch with
    | none => simp [hc, ih']
    | some c => simp [hc, ih', h0]

theorem directText_append (cc : CharClass) (a b : List Item) (addr : List Nat) :
    directText cc (a ++ b) addr = (directText cc a addr || directText cc b addr) := List.any_append

theorem directText_false (cc : CharClass) (l : List Item) (addr : List Nat)
    (h : ∀ it ∈ l, it.addr ≠ addr) : directText cc l addr = false := by
  unfold directText
  rw [List.any_eq_false]
  intro it hit
  simp [h it hit]

theorem directText_textAt (cc : CharClass) (addr : List Nat) (chain : List (Str × Dict Str)) (s : Str) :
    directText cc (textAt addr chain s) addr = s.any (fun c => !cc.isSpace c) := by
  unfold directText textAt
  rw [List.any_map]
  congr 1
  funext c
  simp

theorem isBlank_any (cc : CharClass) (x : Option Str) :
    (!isBlank cc x) = (orEmpty x).any (fun c => !cc.isSpace c) := by
  cases x with
  | none => rfl
  | some s =>
    simp only [isBlank, orEmpty]
    have key : (s.isEmpty || (strip cc s).isEmpty) = s.all cc.isSpace := by
      rw [Bool.eq_iff_iff, Bool.or_eq_true, List.isEmpty_iff, List.isEmpty_iff, strip_eq_nil_iff, List.all_eq_true]
      constructor
      · rintro (rfl | h)
        · intro c hc; cases hc
        · exact h
      · exact .inr
    rw [key, List.all_eq_not_any_not, Bool.not_not]

theorem ne_of_longer {addr r : List Nat} {i : Nat} : addr ++ i :: r ≠ addr := by
  intro h
  have := congrArg List.length h
  simp at this

theorem directText_list (cc : CharClass) (addr : List Nat) (chain : List (Str × Dict Str)) (es : List Elem) (n : Nat) :
    directText cc (itemsList addr chain n es) addr = es.any (fun c => !isBlank cc c.tail) := by
  induction es generalizing n with
  | nil => rfl
  | cons e es ih =>
    obtain ⟨t, a, x, cs, tl⟩ := e
    simp only [itemsList, directText_append, List.any_cons, ih, directText_textAt]
    have h1 : directText cc (if t = c!"lb" then [⟨addr, chain, none⟩] else []) addr = false := by
      split
      · simp [directText]
      · rfl
    have h2 : directText cc (itemsElem (addr ++ [n]) (chain ++ [(t, a)]) (.mk t a x cs tl)) addr = false := by
      apply directText_false
      intro it hit
      rcases itemsElem_addr _ _ _ it hit with h | ⟨i, r, h, _⟩
      · rw [h]; exact ne_of_longer
      · rw [h, List.append_assoc]; exact ne_of_longer
    rw [h1, h2, isBlank_any]
    rfl

theorem directText_elem (cc : CharClass) (addr : List Nat) (chain : List (Str × Dict Str)) (t : Str) (a : Dict Str)
    (x : Option Str) (cs : List Elem) (tl : Option Str) :
    directText cc (itemsElem addr chain (.mk t a x cs tl)) addr =
      (!isBlank cc x || cs.any (fun c => !isBlank cc c.tail)) := by
  simp only [itemsElem, directText_append, directText_textAt, directText_list, isBlank_any]

/-- What extends the place of an element. -/
def Below (addr : List Nat) (chain : List (Str × Dict Str)) (it : Item) : Prop :=
  ∃ r s, it.addr = addr ++ r ∧ it.chain = chain ++ s ∧ r.length = s.length

mutual
theorem itemsElem_below (addr : List Nat) (chain : List (Str × Dict Str)) (e : Elem) (it : Item)
    (h : it ∈ itemsElem addr chain e) : Below addr chain it := by
  match e with
  | .mk t a x cs tl =>
    simp only [itemsElem, List.mem_append] at h
    rcases h with h | h
    · obtain ⟨c, _, rfl⟩ := List.mem_map.1 h
      exact ⟨[], [], by simp, by simp, rfl⟩
    · exact itemsList_below addr chain 0 cs it h
theorem itemsList_below (addr : List Nat) (chain : List (Str × Dict Str)) (n : Nat) (es : List Elem)
    (it : Item) (h : it ∈ itemsList addr chain n es) : Below addr chain it := by
  match es with
  | [] => simp [itemsList] at h
  | .mk t a x cs tl :: es =>
    simp only [itemsList, List.mem_append] at h
    rcases h with ((h | h) | h) | h
    · split at h
      · rw [List.mem_singleton.1 h]; exact ⟨[], [], by simp, by simp, rfl⟩
      · simp at h
    · obtain ⟨r, s, h1, h2, h3⟩ := itemsElem_below (addr ++ [n]) (chain ++ [(t, a)]) (.mk t a x cs tl) it h
      exact ⟨n :: r, (t, a) :: s, by simp [h1], by simp [h2], by simp [h3]⟩
    · obtain ⟨c, _, rfl⟩ := List.mem_map.1 h
      exact ⟨[], [], by simp, by simp, rfl⟩
    · exact itemsList_below addr chain (n + 1) es it h
end

mutual
theorem textNodes_flatten (e : Elem) : (textNodes e).flatten = itertext e := by
  match e with
  | .mk t a x cs tl => simp only [textNodes, itertext, List.flatten_cons, textNodesList_flatten cs]
theorem textNodesList_flatten (es : List Elem) : (textNodesList es).flatten = itertextList es := by
  match es with
  | [] => rfl
  | .mk t a x cs tl :: es =>
    simp only [textNodesList, itertextList, List.flatten_append, textNodes_flatten (.mk t a x cs tl),
      textNodesList_flatten es, List.flatten_cons, List.flatten_nil, List.append_nil, List.append_assoc]
end

theorem depths_cons (d n : Nat) (h : d ≤ n) : depths d n = d :: depths (d + 1) n := by
  unfold depths
  have : n + 1 - d = (n + 1 - (d + 1)) + 1 := by omega
  rw [this, List.range'_succ]

theorem depths_nil (d n : Nat) (h : n < d) : depths d n = [] := by
  unfold depths
  have : n + 1 - d = 0 := by omega
  rw [this]; rfl

theorem below_take {addr : List Nat} {chain : List (Str × Dict Str)} {it : Item} (h : Below addr chain it)
    (hl : addr.length = chain.length) :
    it.addr.take addr.length = addr ∧ it.chain.take addr.length = chain ∧ addr.length ≤ it.addr.length := by
  obtain ⟨r, s, h1, h2, _⟩ := h
  refine ⟨by rw [h1, List.take_left], by rw [h2, hl, List.take_left], by rw [h1]; simp⟩

/-- At a tagged element everything below has its path. -/
theorem outerTag_tagged (cc : CharClass) (rp : List Str) (all : List Item) {addr : List Nat}
    {chain : List (Str × Dict Str)} {it : Item} (h : Below addr chain it) (hl : addr.length = chain.length)
    (hm : (directText cc all addr || rp.contains (joinWith c!"/" (chainPath chain))) = true) :
    outerTag cc rp all addr.length it = some (joinWith c!"/" (chainPath chain)) := by
  obtain ⟨h1, h2, h3⟩ := below_take h hl
  unfold outerTag
  rw [depths_cons _ _ h3, List.find?_cons_of_pos]
  · rw [Option.map_some, h2]
  · unfold marked; rw [h1, h2]; exact hm

/-- An element that is not tagged does not count. -/
theorem outerTag_skip (cc : CharClass) (rp : List Str) (all : List Item) {addr : List Nat}
    {chain : List (Str × Dict Str)} {it : Item} (h : Below addr chain it) (hl : addr.length = chain.length)
    (hm : addr = [] ∨ (directText cc all addr || rp.contains (joinWith c!"/" (chainPath chain))) = false) :
    outerTag cc rp all (max 1 addr.length) it = outerTag cc rp all (addr.length + 1) it := by
  rcases hm with rfl | hm
  · rfl
  · obtain ⟨h1, h2, h3⟩ := below_take h hl
    by_cases h0 : addr = []
    · subst h0; rfl
    · have : max 1 addr.length = addr.length := by
        have := List.length_pos_iff.2 h0; omega
      rw [this]
      unfold outerTag
      rw [depths_cons _ _ h3, List.find?_cons_of_neg]
      unfold marked; rw [h1, h2, hm]; simp

theorem outerTag_here (cc : CharClass) (rp : List Str) (all : List Item) {addr : List Nat} {it : Item}
    (h : it.addr = addr) : outerTag cc rp all (addr.length + 1) it = none := by
  unfold outerTag
  rw [h, depths_nil _ _ (by omega)]; rfl

theorem itemChars_congr {g g' : Item → Option Str} {l : List Item} (h : ∀ it ∈ l, g it = g' it) :
    itemChars g l = itemChars g' l := by
  unfold itemChars
  induction l with
  | nil => rfl
  | cons it l ih =>
    rw [List.filterMap_cons, List.filterMap_cons, ih (fun x hx => h x (by simp [hx])), h it (by simp)]

mutual
theorem segments_chars (cc : CharClass) (rp : List Str) (all : List Item) (e : Elem) (addr : List Nat)
    (chain : List (Str × Dict Str)) (hl : addr.length = chain.length)
    (hloc : ∀ a, addr <+: a → directText cc all a = directText cc (itemsElem addr chain e) a) :
    (segments cc rp (chainPath chain) e).flatMap segChars =
      itemChars (outerTag cc rp all (max 1 addr.length)) (itemsElem addr chain e) := by
  match e with
  | .mk t a x cs tl =>
    have hd : directText cc all addr = (!isBlank cc x || cs.any (fun c => !isBlank cc c.tail)) := by
      rw [hloc addr (List.prefix_refl _), directText_elem]
    have htag : isTagged cc rp (chainPath chain) x cs =
        (directText cc all addr || rp.contains (joinWith c!"/" (chainPath chain))) := by
      rw [hd]; rfl
    have hnil : chainPath chain = [] ↔ addr = [] := by
      rw [← List.length_eq_zero_iff, ← List.length_eq_zero_iff, hl, chainPath, List.length_map]
    rw [segments]
    by_cases hc : chainPath chain ≠ [] ∧ isTagged cc rp (chainPath chain) x cs = true
    · rw [if_pos hc]
      have h1 : max 1 addr.length = addr.length := by
        have : addr ≠ [] := fun h => hc.1 (hnil.2 h)
        have := List.length_pos_iff.2 this; omega
      rw [h1, itemChars_const _ (some (joinWith c!"/" (chainPath chain)))]
      · have := itemsElem_text addr chain (.mk t a x cs tl)
        simp only [itemsText] at this
        rw [this, ← textNodes_flatten]
        simp [segChars]
      · intro it hit
        exact outerTag_tagged cc rp all (itemsElem_below _ _ _ it hit) hl (htag ▸ hc.2)
    · rw [if_neg hc]
      have hm : addr = [] ∨ (directText cc all addr || rp.contains (joinWith c!"/" (chainPath chain))) = false := by
        by_cases h0 : addr = []
        · exact .inl h0
        · right
          rw [← htag]
          have := fun h => hc ⟨fun hh => h0 (hnil.1 hh), h⟩
          simpa using this
      rw [itemChars_congr (g' := outerTag cc rp all (addr.length + 1))
        (fun it hit => outerTag_skip cc rp all (itemsElem_below _ _ _ it hit) hl hm)]
      simp only [itemsElem]
      rw [itemChars_append, itemChars_textAt _ _ _ _ none (fun it h _ => outerTag_here cc rp all h),
        List.flatMap_cons]
      congr 1
      · simp [segChars]
      · apply segmentsList_chars cc rp all cs addr chain 0 hl
        intro i a _ hp
        rw [hloc a ((List.prefix_append _ _).trans hp)]
        simp only [itemsElem, directText_append]
        rw [directText_false, Bool.false_or]
        intro it hit h
        rw [mem_textAt hit] at h
        obtain ⟨r, hr⟩ := hp
        rw [← h, List.append_assoc] at hr
        exact ne_of_longer hr
theorem segmentsList_chars (cc : CharClass) (rp : List Str) (all : List Item) (es : List Elem) (addr : List Nat)
    (chain : List (Str × Dict Str)) (n : Nat) (hl : addr.length = chain.length)
    (hloc : ∀ i a, n ≤ i → addr ++ [i] <+: a → directText cc all a = directText cc (itemsList addr chain n es) a) :
    (segmentsList cc rp (chainPath chain) es).flatMap segChars =
      itemChars (outerTag cc rp all (addr.length + 1)) (itemsList addr chain n es) := by
  match es with
  | [] => rfl
  | .mk t a x cs tl :: es =>
    have hhere : ∀ (s : Str) (b : List Nat) (i : Nat), addr ++ [i] <+: b → directText cc (textAt addr chain s) b = false := by
      intro s b i hb
      apply directText_false
      intro it hit h
      rw [mem_textAt hit] at h
      obtain ⟨r, hr⟩ := hb
      rw [← h, List.append_assoc] at hr
      exact ne_of_longer hr
    have hlb : ∀ b, directText cc (if t = c!"lb" then [⟨addr, chain, none⟩] else []) b = false := by
      intro b
      split
      · simp [directText]
      · rfl
    have h1 := segments_chars cc rp all (.mk t a x cs tl) (addr ++ [n]) (chain ++ [(t, a)]) (by simp [hl]) (by
      intro b hb
      rw [hloc n b (Nat.le_refl _) hb]
      simp only [itemsList, directText_append, hlb, hhere _ b n hb, Bool.false_or, Bool.or_false]
      rw [directText_false cc (itemsList addr chain (n + 1) es), Bool.or_false]
      intro it hit h
      obtain ⟨r, hr⟩ := hb
      rcases itemsList_addr _ _ _ _ it hit with h' | ⟨i, r', h', h2, _⟩
      · rw [h'] at h; rw [← h, List.append_assoc] at hr; exact ne_of_longer hr
      · rw [h', ← hr, List.append_assoc, List.append_cancel_left_eq] at h
        simp at h
        omega)
    have h2 := segmentsList_chars cc rp all es addr chain (n + 1) hl (by
      intro i b hi hb
      rw [hloc i b (by omega) hb]
      simp only [itemsList, directText_append, hlb, hhere _ b i hb, Bool.false_or, Bool.or_false]
      rw [directText_false cc (itemsElem _ _ _), Bool.false_or]
      intro it hit h
      obtain ⟨r, hr⟩ := hb
      obtain ⟨r', _, h', _⟩ := itemsElem_below _ _ _ it hit
      rw [h', ← hr, List.append_assoc, List.append_assoc, List.append_cancel_left_eq] at h
      simp at h
      omega)
    have hpath : chainPath (chain ++ [(t, a)]) = chainPath chain ++ [component t a] := by simp [chainPath]
    have hlen : max 1 (addr ++ [n]).length = addr.length + 1 := by simp
    rw [hpath, hlen] at h1
    simp only [segmentsList, itemsList, List.flatMap_append, itemChars_append, h1, h2]
    congr 1
    rw [itemChars_textAt _ _ _ _ none (fun it h _ => outerTag_here cc rp all h)]
    have : itemChars (outerTag cc rp all (addr.length + 1)) (if t = c!"lb" then [⟨addr, chain, none⟩] else []) = [] := by
      split <;> rfl
    rw [this]
    simp [segChars]
end

/-! ### An address determines the elements around it -/

mutual
theorem itemsElem_chain (addr : List Nat) (chain : List (Str × Dict Str)) (e : Elem) (it it' : Item)
    (h : it ∈ itemsElem addr chain e) (h' : it' ∈ itemsElem addr chain e) (hp : it.addr <+: it'.addr) :
    it.chain <+: it'.chain := by
  match e with
  | .mk t a x cs tl =>
    have hb' := itemsElem_below _ _ _ it' h'
    simp only [itemsElem, List.mem_append] at h h'
    rcases h with h | h
    · obtain ⟨c, _, rfl⟩ := List.mem_map.1 h
      obtain ⟨r, s, _, h2, _⟩ := hb'
      exact ⟨s, h2.symm⟩
    · rcases h' with h' | h'
      · have ha := mem_textAt h'
        obtain ⟨c, _, rfl⟩ := List.mem_map.1 h'
        obtain ⟨r, s, h1, h2, h3⟩ := itemsList_below _ _ _ _ it h
        have := hp.length_le
        rw [h1] at this
        have hr : r = [] := by
          rw [List.length_append] at this
          exact List.length_eq_zero_iff.1 (by simp only at this; omega)
        subst hr
        have hs : s = [] := List.length_eq_zero_iff.1 h3.symm
        subst hs
        rw [h2]; simp
      · exact itemsList_chain addr chain 0 cs it it' h h' hp
theorem itemsList_chain (addr : List Nat) (chain : List (Str × Dict Str)) (n : Nat) (es : List Elem) (it it' : Item)
    (h : it ∈ itemsList addr chain n es) (h' : it' ∈ itemsList addr chain n es) (hp : it.addr <+: it'.addr) :
    it.chain <+: it'.chain := by
  match es with
  | [] => simp [itemsList] at h
  | .mk t a x cs tl :: es =>
    obtain ⟨r, s, hb1, hb2, hb3⟩ := itemsList_below _ _ _ _ it h
    obtain ⟨r', s', hb1', hb2', _⟩ := itemsList_below _ _ _ _ it' h'
    by_cases hr : r = []
    · subst hr
      have hs : s = [] := List.length_eq_zero_iff.1 hb3.symm
      subst hs
      rw [hb2, hb2', List.append_nil]
      exact List.prefix_append _ _
    · have hne : it.addr ≠ addr := by
        rw [hb1]; intro hh
        exact hr (by simpa using hh)
      have hne' : it'.addr ≠ addr := by
        intro hh
        have := hp.length_le
        rw [hh, hb1] at this
        rw [List.length_append] at this
        exact hr (List.length_eq_zero_iff.1 (by omega))
      obtain ⟨q, hq⟩ := hp
      simp only [itemsList, List.mem_append] at h h'
      have hin : ∀ j, j ∈ (if t = c!"lb" then [(⟨addr, chain, none⟩ : Item)] else []) → j.addr = addr := by
        intro j hj
        split at hj
        · rw [List.mem_singleton.1 hj]
        · simp at hj
      rcases h with ((h | h) | h) | h
      · exact absurd (hin _ h) hne
      · rcases h' with ((h' | h') | h') | h'
        · exact absurd (hin _ h') hne'
        · exact itemsElem_chain _ _ _ it it' h h' ⟨q, hq⟩
        · exact absurd (mem_textAt h') hne'
        · exfalso
          obtain ⟨r1, _, h1, _⟩ := itemsElem_below _ _ _ it h
          rcases itemsList_addr _ _ _ _ it' h' with h2 | ⟨i, r2, h2, h3, _⟩
          · exact hne' h2
          · rw [h1, h2, List.append_assoc, List.append_assoc, List.append_cancel_left_eq] at hq
            simp at hq
            omega
      · exact absurd (mem_textAt h) hne
      · rcases h' with ((h' | h') | h') | h'
        · exact absurd (hin _ h') hne'
        · exfalso
          obtain ⟨r1, _, h1, _⟩ := itemsElem_below _ _ _ it' h'
          rcases itemsList_addr _ _ _ _ it h with h2 | ⟨i, r2, h2, h3, _⟩
          · exact hne h2
          · rw [h1, h2, List.append_assoc, List.append_assoc, List.append_cancel_left_eq] at hq
            simp at hq
            omega
        · exact absurd (mem_textAt h') hne'
        · exact itemsList_chain addr chain (n + 1) es it it' h h' ⟨q, hq⟩
end

/-! ### The tokens loaded -/

/-- The characters of tokens with the value of the tag. -/
def viewChars (l : List (Str × Option Str)) : List (Char × Option Str) :=
  l.flatMap (fun p => p.1.map (fun c => (c, stripTagPrefix p.2)))

theorem cutAt_flatten (cc : CharClass) (s : Str) : (cutAt (tokenBoundary cc) s).flatten = s := by
  rw [← tokenizeText_eq_cutAt]; exact tokenizeText_flatten cc s

theorem viewChars_const (v : Option Str) (g : Str → Option Str) (ts : List Str) (h : ∀ t, stripTagPrefix (g t) = v) :
    viewChars (ts.map (fun t => (t, g t))) = ts.flatten.map (fun c => (c, v)) := by
  unfold viewChars
  induction ts with
  | nil => rfl
  | cons t ts ih => simp [h] at ih ⊢; rw [ih]

theorem viewChars_segment (cc : CharClass) (s : Option Str × List Str) :
    viewChars (segmentTokens cc s) = segChars s := by
  obtain ⟨v, nodes⟩ := s
  have hf : (nodes.flatMap (cutAt (tokenBoundary cc))).flatten = nodes.flatten := by
    induction nodes with
    | nil => rfl
    | cons x xs ih => rw [List.flatMap_cons, List.flatten_append, cutAt_flatten, ih]; rfl
  cases v with
  | none =>
    simp only [segmentTokens, segChars]
    rw [viewChars_const none (fun _ => none) _ (fun _ => rfl), hf]
  | some p =>
    simp only [segmentTokens, segChars]
    rw [← hf]
    generalize nodes.flatMap (cutAt (tokenBoundary cc)) = ts
    cases ts with
    | nil => rfl
    | cons t ts =>
      have h2 := viewChars_const (some p) (fun _ => some (c!"i-" ++ p)) ts (fun _ => stripTagPrefix_i p)
      have h1 := viewChars_const (some p) (fun _ => some (c!"b-" ++ p)) [t] (fun _ => stripTagPrefix_b p)
      simp only [beginInside]
      show viewChars ([t].map (fun t => (t, some (c!"b-" ++ p))) ++ _) = _
      rw [viewChars, List.flatMap_append]
      rw [viewChars] at h1 h2
      rw [h1, h2]; simp

theorem viewChars_flatMap {α : Type} (g : α → List (Str × Option Str)) (l : List α) :
    viewChars (l.flatMap g) = l.flatMap (fun x => viewChars (g x)) := by
  induction l with
  | nil => rfl
  | cons x l ih => rw [List.flatMap_cons, List.flatMap_cons, ← ih]; simp [viewChars]

/-- The characters of the loaded tokens with their tags are the characters of the element, each
with the path of the outermost tagged element around it. -/
theorem extract_chars (cc : CharClass) (rp : List Str) (f : Frame) (lines : List (List Tok))
    (hn : allBelow (fun tag _ => tag ≠ []) f.close)
    (h : extractContainers cc rp [f.close] = .ok lines) :
    viewChars (lines.flatten.map (fun t => (t.text, t.attrib.get? c!"tag"))) =
      itemChars (outerTag cc rp (Spec.items f.close) 1) (Spec.items f.close) := by
  have h1 := extractContainersFrom_tags cc rp [f.close] Buf.empty lines h rfl rfl
    (fun e he => by rw [List.mem_singleton.1 he]; exact hn)
  have h2 := segments_chars cc rp (Spec.items f.close) f.close [] [] rfl (fun _ _ => rfl)
  rw [show (fun t : Tok => (t.text, t.attrib.get? c!"tag")) = tokView from rfl]
  have e : (lines.flatten.map tokView) = _ := h1
  rw [e, List.flatMap_cons, List.flatMap_nil, List.append_nil, viewChars_flatMap]
  simp only [viewChars_segment, List.flatMap_append]
  rw [show Spec.segments cc rp [] f.close = segments cc rp (chainPath []) f.close from rfl, h2]
  simp [segChars, Frame.close, Elem.tail, orEmpty, Spec.items]

end Verif
