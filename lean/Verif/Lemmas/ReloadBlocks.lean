/-
Loading a written element: entities start with the outermost tagged elements.
-/
import Verif.Lemmas.ReloadWrite

namespace Verif
open Spec

/-! ### Entities by characters -/

/-- Marks the first character. -/
def flagFirst (b : Bool) : List (Char × Option Str) → List (Char × Option Str × Bool)
  | [] => []
  | x :: l => (x.1, x.2, b) :: l.map (fun y => (y.1, y.2, false))

/-- `Spec.entityChars` for single characters. -/
def charMachine (cc : CharClass) : Option Str → List (Option Str) → List (Char × Option Str × Bool) →
    List (Char × Option Str × Bool)
  | _, _, [] => []
  | prev, begun, (c, v, b) :: l =>
    if cc.isSpace c then charMachine cc prev (if b then v :: begun else begun) l
    else (c, v, decide (v ≠ none ∧ (b = true ∨ v ∈ begun ∨ prev ≠ v))) :: charMachine cc v [] l

theorem charMachine_continue (cc : CharClass) (s : Str) (v : Option Str) (l : List (Char × Option Str × Bool)) :
    charMachine cc v [] (s.map (fun c => (c, v, false)) ++ l) =
      (s.filter (fun c => !cc.isSpace c)).map (fun c => (c, v, false)) ++ charMachine cc v [] l := by
  induction s with
  | nil => rfl
  | cons c s ih =>
    rw [List.map_cons, List.cons_append, charMachine]
    cases hc : cc.isSpace c <;> simp [hc, ih]

theorem charMachine_run (cc : CharClass) (s : Str) (v prev : Option Str) (begun : List (Option Str))
    (l : List (Char × Option Str × Bool)) :
    charMachine cc prev begun (s.map (fun c => (c, v, false)) ++ l) =
      if s.all cc.isSpace then charMachine cc prev begun l
      else entityLabels v (decide (v ≠ none ∧ (v ∈ begun ∨ prev ≠ v))) (s.filter (fun c => !cc.isSpace c)) ++
        charMachine cc v [] l := by
  induction s generalizing prev begun with
  | nil => rfl
  | cons c s ih =>
    rw [List.map_cons, List.cons_append, charMachine]
    cases hc : cc.isSpace c with
    | true => simp [hc, ih]
    | false => simp [hc, charMachine_continue, entityLabels]

theorem charMachine_flagged (cc : CharClass) (b : Bool) (s : Str) (v prev : Option Str) (begun : List (Option Str))
    (l : List (Char × Option Str × Bool)) :
    charMachine cc prev begun (flagFirst b (s.map (fun c => (c, v))) ++ l) =
      if s.all cc.isSpace then charMachine cc prev (if b && !s.isEmpty then v :: begun else begun) l
      else entityLabels v (decide (v ≠ none ∧ (b = true ∨ v ∈ begun ∨ prev ≠ v))) (s.filter (fun c => !cc.isSpace c)) ++
        charMachine cc v [] l := by
  cases s with
  | nil => simp [flagFirst]
  | cons c s =>
    have e : flagFirst b ((c :: s).map (fun c => (c, v))) ++ l =
        (c, v, b) :: (s.map (fun c => (c, v, false)) ++ l) := by
      simp [flagFirst]
    rw [e, charMachine]
    cases hc : cc.isSpace c with
    | true =>
      rw [if_pos rfl, charMachine_run]
      simp only [List.all_cons, hc, Bool.true_and, List.isEmpty_cons, Bool.not_false, Bool.and_true, List.filter_cons,
        Bool.not_true, Bool.false_eq_true, if_false]
      split
      · rfl
      · congr 2
        cases b <;> simp
    | false => simp [hc, charMachine_continue, entityLabels]

/-- The characters of a token with its tag. -/
def tokStream (t : Tok) : List (Char × Option Str × Bool) :=
  flagFirst (beginsEntity t) (t.text.map (fun c => (c, mainValue t)))

theorem entityChars_stream (cc : CharClass) (toks : List Tok) (hne : ∀ t ∈ toks, t.text ≠ []) (prev : Option Str)
    (begun : List (Option Str)) :
    entityChars cc prev begun toks = charMachine cc prev begun (toks.flatMap tokStream) := by
  induction toks generalizing prev begun with
  | nil => rfl
  | cons t ts ih =>
    have ih' := fun p b => ih (fun u hu => hne u (by simp [hu])) p b
    rw [List.flatMap_cons, tokStream, charMachine_flagged, entityChars]
    have : t.text.isEmpty = false := by
      have := hne t (by simp)
      cases h : t.text with
      | nil => exact absurd h this
      | cons => rfl
    simp only [this, Bool.not_false, Bool.and_true, blank, ih']

theorem charMachine_blocks (cc : CharClass) (bl : List (Bool × Option Str × Str))
    (hb : ∀ x ∈ bl, x.2.1 ≠ none → x.1 = true) (prev : Option Str) (begun : List (Option Str)) :
    charMachine cc prev begun (bl.flatMap (fun x => flagFirst x.1 (x.2.2.map (fun c => (c, x.2.1))))) =
      bl.flatMap (fun x => entityLabels x.2.1 (decide (x.2.1 ≠ none)) (x.2.2.filter (fun c => !cc.isSpace c))) := by
  induction bl generalizing prev begun with
  | nil => rfl
  | cons x bl ih =>
    have ih' := fun p b => ih (fun u hu => hb u (by simp [hu])) p b
    rw [List.flatMap_cons, charMachine_flagged, List.flatMap_cons]
    split
    · next ha =>
      have : x.2.2.filter (fun c => !cc.isSpace c) = [] := by
        rw [List.filter_eq_nil_iff]
        intro y hy
        simp [List.all_eq_true.1 ha y hy]
      rw [this, ih']; rfl
    · rw [ih']
      congr 2
      have := hb x (by simp)
      by_cases hv : x.2.1 = none
      · simp [hv]
      · simp [this hv]

/-- Characters with a tag and the address of the element it comes from: an entity starts where the
element changes. -/
def elementMachine : Option (List Nat) → List (Char × Option Str × Option (List Nat)) → List (Char × Option Str × Bool)
  | _, [] => []
  | po, (c, v, o) :: l => (c, v, decide (v ≠ none ∧ o ≠ po)) :: elementMachine o l

theorem elementMachine_same (s : Str) (v : Option Str) (o : Option (List Nat))
    (l : List (Char × Option Str × Option (List Nat))) :
    elementMachine o (s.map (fun c => (c, v, o)) ++ l) = s.map (fun c => (c, v, false)) ++ elementMachine o l := by
  induction s with
  | nil => rfl
  | cons c s ih =>
    rw [List.map_cons, List.cons_append, elementMachine, ih]
    simp

theorem elementMachine_run (s : Str) (v : Option Str) (o po : Option (List Nat))
    (l : List (Char × Option Str × Option (List Nat))) :
    elementMachine po (s.map (fun c => (c, v, o)) ++ l) =
      entityLabels v (decide (v ≠ none ∧ o ≠ po)) s ++ elementMachine (if s = [] then po else o) l := by
  cases s with
  | nil => rfl
  | cons c s =>
    rw [List.map_cons, List.cons_append, elementMachine, elementMachine_same, if_neg (by simp)]
    rfl

theorem elementMachine_blocks (bl : List (Option (List Nat) × Option Str × Str))
    (hv : ∀ x ∈ bl, x.2.1 ≠ none → x.1 ≠ none) (hn : (bl.filterMap (·.1)).Nodup) (po : Option (List Nat))
    (hpo : ∀ a, po = some a → a ∉ bl.filterMap (·.1)) :
    elementMachine po (bl.flatMap (fun x => x.2.2.map (fun c => (c, x.2.1, x.1)))) =
      bl.flatMap (fun x => entityLabels x.2.1 (decide (x.2.1 ≠ none)) x.2.2) := by
  induction bl generalizing po with
  | nil => rfl
  | cons x bl ih =>
    obtain ⟨o, v, s⟩ := x
    have hv0 := hv (o, v, s) (by simp)
    rw [List.flatMap_cons, List.flatMap_cons, elementMachine_run]
    have hn' : (bl.filterMap (·.1)).Nodup := by
      cases o with
      | none => simpa using hn
      | some a => rw [List.filterMap_cons, List.nodup_cons] at hn; exact hn.2
    have hst : decide (v ≠ none ∧ o ≠ po) = decide (v ≠ none) := by
      by_cases h : v = none
      · simp [h]
      · have h1 := hv0 h
        have h2 : o ≠ po := by
          intro he
          cases o with
          | none => exact h1 rfl
          | some a => exact hpo a he.symm (by rw [List.filterMap_cons]; simp)
        simp [h2]
    rw [hst]
    congr 1
    apply ih (fun y hy => hv y (by simp [hy])) hn'
    intro a ha
    split at ha
    · intro hm
      apply hpo a ha
      cases o with
      | none => simpa using hm
      | some b => rw [List.filterMap_cons]; exact List.mem_cons_of_mem _ hm
    · subst ha
      rw [List.filterMap_cons, List.nodup_cons] at hn
      exact hn.1

/-! ### Outermost tagged elements as blocks -/

/-- Address and path of the outermost tagged element with depth at least `d`. -/
def outerInfo (cc : CharClass) (rp : List Str) (all : List Item) (d : Nat) (it : Item) : Option (List Nat × Str) :=
  ((depths d it.addr.length).find? (marked cc rp all it)).map
    (fun k => (it.addr.take k, joinWith c!"/" (chainPath (it.chain.take k))))

theorem outerInfo_tagged (cc : CharClass) (rp : List Str) (all : List Item) {addr : List Nat}
    {chain : List (Str × Dict Str)} {it : Item} (h : Below addr chain it) (hl : addr.length = chain.length)
    (hm : (directText cc all addr || rp.contains (joinWith c!"/" (chainPath chain))) = true) :
    outerInfo cc rp all addr.length it = some (addr, joinWith c!"/" (chainPath chain)) := by
  obtain ⟨h1, h2, h3⟩ := below_take h hl
  unfold outerInfo
  rw [depths_cons _ _ h3, List.find?_cons_of_pos]
  · rw [Option.map_some, h2, h1]
  · unfold marked; rw [h1, h2]; exact hm

theorem outerInfo_skip (cc : CharClass) (rp : List Str) (all : List Item) {addr : List Nat}
    {chain : List (Str × Dict Str)} {it : Item} (h : Below addr chain it) (hl : addr.length = chain.length)
    (hm : addr = [] ∨ (directText cc all addr || rp.contains (joinWith c!"/" (chainPath chain))) = false) :
    outerInfo cc rp all (max 1 addr.length) it = outerInfo cc rp all (addr.length + 1) it := by
  rcases hm with rfl | hm
  · rfl
  · obtain ⟨h1, h2, h3⟩ := below_take h hl
    by_cases h0 : addr = []
    · subst h0; rfl
    · have : max 1 addr.length = addr.length := by
        have := List.length_pos_iff.2 h0; omega
      rw [this]
      unfold outerInfo
      rw [depths_cons _ _ h3, List.find?_cons_of_neg]
      unfold marked; rw [h1, h2, hm]; simp

theorem outerInfo_here (cc : CharClass) (rp : List Str) (all : List Item) {addr : List Nat} {it : Item}
    (h : it.addr = addr) : outerInfo cc rp all (addr.length + 1) it = none := by
  unfold outerInfo
  rw [h, depths_nil _ _ (by omega)]; rfl

/-- What is in an outermost tagged element (with its address and path), or outside. -/
abbrev TagBlock := Option (List Nat × Str) × List Item

mutual
def tagBlocks (cc : CharClass) (rp : List Str) (addr : List Nat) (chain : List (Str × Dict Str)) : Elem → List TagBlock
  | .mk t a x cs tl =>
    if chainPath chain ≠ [] ∧ isTagged cc rp (chainPath chain) x cs = true then
      [(some (addr, joinWith c!"/" (chainPath chain)), itemsElem addr chain (.mk t a x cs tl))]
    else (none, textAt addr chain (orEmpty x)) :: tagBlocksList cc rp addr chain 0 cs
def tagBlocksList (cc : CharClass) (rp : List Str) (addr : List Nat) (chain : List (Str × Dict Str)) (n : Nat) :
    List Elem → List TagBlock
  | [] => []
  | .mk t a x cs tl :: es =>
    [(none, if t = c!"lb" then [⟨addr, chain, none⟩] else [])] ++
      tagBlocks cc rp (addr ++ [n]) (chain ++ [(t, a)]) (.mk t a x cs tl) ++
      [(none, textAt addr chain (orEmpty tl))] ++ tagBlocksList cc rp addr chain (n + 1) es
end

mutual
theorem blocks_items (cc : CharClass) (rp : List Str) (addr : List Nat) (chain : List (Str × Dict Str)) (e : Elem) :
    (tagBlocks cc rp addr chain e).flatMap (·.2) = itemsElem addr chain e := by
  match e with
  | .mk t a x cs tl =>
    rw [tagBlocks]
    split
    · simp
    · rw [List.flatMap_cons, blocksList_items cc rp addr chain 0 cs, itemsElem]
theorem blocksList_items (cc : CharClass) (rp : List Str) (addr : List Nat) (chain : List (Str × Dict Str)) (n : Nat)
    (es : List Elem) : (tagBlocksList cc rp addr chain n es).flatMap (·.2) = itemsList addr chain n es := by
  match es with
  | [] => rfl
  | .mk t a x cs tl :: es =>
    rw [tagBlocksList, itemsList]
    simp only [List.flatMap_append, blocks_items cc rp _ _ (.mk t a x cs tl), blocksList_items cc rp addr chain (n + 1) es,
      List.flatMap_cons, List.flatMap_nil, List.append_nil]
end

mutual
theorem blocks_addr (cc : CharClass) (rp : List Str) (addr : List Nat) (chain : List (Str × Dict Str)) (e : Elem)
    (b : TagBlock) (hb : b ∈ tagBlocks cc rp addr chain e) (i : List Nat × Str) (hi : b.1 = some i) : addr <+: i.1 := by
  match e with
  | .mk t a x cs tl =>
    rw [tagBlocks] at hb
    split at hb
    · rw [List.mem_singleton.1 hb] at hi
      cases hi
      exact List.prefix_refl _
    · rcases List.mem_cons.1 hb with rfl | hb
      · cases hi
      · obtain ⟨k, _, h⟩ := blocksList_addr cc rp addr chain 0 cs b hb i hi
        exact (List.prefix_append _ _).trans h
theorem blocksList_addr (cc : CharClass) (rp : List Str) (addr : List Nat) (chain : List (Str × Dict Str)) (n : Nat)
    (es : List Elem) (b : TagBlock) (hb : b ∈ tagBlocksList cc rp addr chain n es) (i : List Nat × Str) (hi : b.1 = some i) :
    ∃ k, n ≤ k ∧ addr ++ [k] <+: i.1 := by
  match es with
  | [] => cases hb
  | .mk t a x cs tl :: es =>
    rw [tagBlocksList] at hb
    simp only [List.mem_append, List.mem_singleton] at hb
    rcases hb with ((rfl | hb) | rfl) | hb
    · cases hi
    · exact ⟨n, Nat.le_refl _, blocks_addr cc rp _ _ _ b hb i hi⟩
    · cases hi
    · obtain ⟨k, h1, h2⟩ := blocksList_addr cc rp addr chain (n + 1) es b hb i hi
      exact ⟨k, by omega, h2⟩
end

/-- The addresses of the tagged tagBlocks. -/
def blockAddrs (bs : List TagBlock) : List (List Nat) := bs.filterMap (fun b => b.1.map (·.1))

theorem mem_blockAddrs {bs : List TagBlock} {a : List Nat} (h : a ∈ blockAddrs bs) : ∃ b ∈ bs, ∃ i, b.1 = some i ∧ i.1 = a := by
  obtain ⟨b, hb, h⟩ := List.mem_filterMap.1 h
  refine ⟨b, hb, ?_⟩
  cases hi : b.1 with
  | none => rw [hi] at h; cases h
  | some i => rw [hi] at h; exact ⟨i, rfl, by simpa using h⟩

theorem blockAddrs_append (a b : List TagBlock) : blockAddrs (a ++ b) = blockAddrs a ++ blockAddrs b := List.filterMap_append

mutual
theorem blocks_nodup (cc : CharClass) (rp : List Str) (addr : List Nat) (chain : List (Str × Dict Str)) (e : Elem) :
    (blockAddrs (tagBlocks cc rp addr chain e)).Nodup := by
  match e with
  | .mk t a x cs tl =>
    rw [tagBlocks]
    split
    · simp [blockAddrs]
    · show (blockAddrs (tagBlocksList cc rp addr chain 0 cs)).Nodup
      exact blocksList_nodup cc rp addr chain 0 cs
theorem blocksList_nodup (cc : CharClass) (rp : List Str) (addr : List Nat) (chain : List (Str × Dict Str)) (n : Nat)
    (es : List Elem) : (blockAddrs (tagBlocksList cc rp addr chain n es)).Nodup := by
  match es with
  | [] => exact List.nodup_nil
  | .mk t a x cs tl :: es =>
    rw [tagBlocksList]
    simp only [blockAddrs_append]
    have e1 : ∀ l : List Item, blockAddrs [((none : Option (List Nat × Str)), l)] = [] := fun _ => rfl
    simp only [e1, List.append_nil, List.nil_append]
    rw [List.nodup_append]
    refine ⟨blocks_nodup cc rp _ _ (.mk t a x cs tl), blocksList_nodup cc rp addr chain (n + 1) es, ?_⟩
    intro u hu v hv huv
    obtain ⟨b, hb, i, hi, rfl⟩ := mem_blockAddrs hu
    obtain ⟨b', hb', i', hi', rfl⟩ := mem_blockAddrs hv
    obtain ⟨r, hr⟩ := blocks_addr cc rp _ _ _ b hb i hi
    obtain ⟨k, hk, r', hr'⟩ := blocksList_addr cc rp addr chain (n + 1) es b' hb' i' hi'
    rw [← huv, ← hr, List.append_assoc, List.append_assoc, List.append_cancel_left_eq] at hr'
    simp at hr'
    omega
end

mutual
theorem blocks_info (cc : CharClass) (rp : List Str) (all : List Item) (e : Elem) (addr : List Nat)
    (chain : List (Str × Dict Str)) (hl : addr.length = chain.length)
    (hloc : ∀ a, addr <+: a → directText cc all a = directText cc (itemsElem addr chain e) a)
    (b : TagBlock) (hb : b ∈ tagBlocks cc rp addr chain e) (it : Item) (hit : it ∈ b.2) :
    outerInfo cc rp all (max 1 addr.length) it = b.1 := by
  match e with
  | .mk t a x cs tl =>
    have hd : directText cc all addr = (!isBlank cc x || cs.any (fun c => !isBlank cc c.tail)) := by
      rw [hloc addr (List.prefix_refl _), directText_elem]
    have htag : isTagged cc rp (chainPath chain) x cs =
        (directText cc all addr || rp.contains (joinWith c!"/" (chainPath chain))) := by
      rw [hd]; rfl
    have hnil : chainPath chain = [] ↔ addr = [] := by
      rw [← List.length_eq_zero_iff, ← List.length_eq_zero_iff, hl, chainPath, List.length_map]
    have hmem : it ∈ itemsElem addr chain (.mk t a x cs tl) := by
      rw [← blocks_items cc rp]; exact List.mem_flatMap.2 ⟨b, hb, hit⟩
    have hbel := itemsElem_below _ _ _ it hmem
    rw [tagBlocks] at hb
    by_cases hc : chainPath chain ≠ [] ∧ isTagged cc rp (chainPath chain) x cs = true
    · rw [if_pos hc] at hb
      have h1 : max 1 addr.length = addr.length := by
        have : addr ≠ [] := fun h => hc.1 (hnil.2 h)
        have := List.length_pos_iff.2 this; omega
      rw [h1, List.mem_singleton.1 hb]
      exact outerInfo_tagged cc rp all hbel hl (htag ▸ hc.2)
    · rw [if_neg hc] at hb
      have hm : addr = [] ∨ (directText cc all addr || rp.contains (joinWith c!"/" (chainPath chain))) = false := by
        by_cases h0 : addr = []
        · exact .inl h0
        · right
          rw [← htag]
          have := fun h => hc ⟨fun hh => h0 (hnil.1 hh), h⟩
          simpa using this
      rw [outerInfo_skip cc rp all hbel hl hm]
      rcases List.mem_cons.1 hb with hb | hb
      · rw [hb] at hit ⊢
        exact outerInfo_here cc rp all (mem_textAt hit)
      · apply blocksList_info cc rp all cs addr chain 0 hl ?_ b hb it hit
        intro i a _ hp
        rw [hloc a ((List.prefix_append _ _).trans hp)]
        simp only [itemsElem, directText_append]
        rw [directText_false, Bool.false_or]
        intro it hit h
        rw [mem_textAt hit] at h
        obtain ⟨r, hr⟩ := hp
        rw [← h, List.append_assoc] at hr
        exact ne_of_longer hr
theorem blocksList_info (cc : CharClass) (rp : List Str) (all : List Item) (es : List Elem) (addr : List Nat)
    (chain : List (Str × Dict Str)) (n : Nat) (hl : addr.length = chain.length)
    (hloc : ∀ i a, n ≤ i → addr ++ [i] <+: a → directText cc all a = directText cc (itemsList addr chain n es) a)
    (b : TagBlock) (hb : b ∈ tagBlocksList cc rp addr chain n es) (it : Item) (hit : it ∈ b.2) :
    outerInfo cc rp all (addr.length + 1) it = b.1 := by
  match es with
  | [] => cases hb
  | .mk t a x cs tl :: es =>
    have hhere : ∀ (s : Str) (b : List Nat) (i : Nat), addr ++ [i] <+: b → directText cc (textAt addr chain s) b = false := by
      intro s b i hb
      apply directText_false
      intro it hit h
      rw [mem_textAt hit] at h
      obtain ⟨r, hr⟩ := hb
      rw [← h, List.append_assoc] at hr
      exact ne_of_longer hr
    have hlb : ∀ b, directText cc (if t = c!"lb" then [⟨addr, chain, none⟩] else []) b = false := by
      intro b
      split
      · simp [directText]
      · rfl
    rw [tagBlocksList] at hb
    simp only [List.mem_append, List.mem_singleton] at hb
    rcases hb with ((hb | hb) | hb) | hb
    · rw [hb] at hit ⊢
      apply outerInfo_here cc rp all
      simp only at hit
      split at hit
      · rw [List.mem_singleton.1 hit]
      · simp at hit
    · have := blocks_info cc rp all (.mk t a x cs tl) (addr ++ [n]) (chain ++ [(t, a)]) (by simp [hl]) (by
        intro b hb
        rw [hloc n b (Nat.le_refl _) hb]
        simp only [itemsList, directText_append, hlb, hhere _ b n hb, Bool.false_or, Bool.or_false]
        rw [directText_false cc (itemsList addr chain (n + 1) es), Bool.or_false]
        intro it hit h
        obtain ⟨r, hr⟩ := hb
        rcases itemsList_addr _ _ _ _ it hit with h' | ⟨i, r', h', h2, _⟩
        · rw [h'] at h; rw [← h, List.append_assoc] at hr; exact ne_of_longer hr
        · rw [h', ← hr, List.append_assoc, List.append_cancel_left_eq] at h
          simp at h
          omega) b hb it hit
      have hlen : max 1 (addr ++ [n]).length = addr.length + 1 := by simp
      rw [hlen] at this
      exact this
    · rw [hb] at hit ⊢
      exact outerInfo_here cc rp all (mem_textAt hit)
    · exact blocksList_info cc rp all es addr chain (n + 1) hl (by
        intro i b hi hb
        rw [hloc i b (by omega) hb]
        simp only [itemsList, directText_append, hlb, hhere _ b i hb, Bool.false_or, Bool.or_false]
        rw [directText_false cc (itemsElem _ _ _), Bool.false_or]
        intro it hit h
        obtain ⟨r, hr⟩ := hb
        obtain ⟨r', _, h', _⟩ := itemsElem_below _ _ _ it hit
        rw [h', ← hr, List.append_assoc, List.append_assoc, List.append_cancel_left_eq] at h
        simp at h
        omega) b hb it hit
end

/-! ### The tokens loaded, with begin prefixes -/

/-- The characters of a segment, marked where an entity begins. -/
def segStream (s : Option Str × List Str) : List (Char × Option Str × Bool) :=
  flagFirst s.1.isSome (s.2.flatten.map (fun c => (c, s.1)))

/-- The text of a block. -/
def blockText (b : TagBlock) : Str := b.2.filterMap (·.ch)

def blockStream (b : TagBlock) : List (Char × Option Str × Bool) :=
  flagFirst b.1.isSome ((blockText b).map (fun c => (c, b.1.map (·.2))))

theorem blockText_textAt (o : Option (List Nat × Str)) (addr : List Nat) (chain : List (Str × Dict Str)) (s : Str) :
    blockText (o, textAt addr chain s) = s := by
  unfold blockText textAt
  simp [List.filterMap_map, Function.comp_def]

mutual
theorem segments_blocks (cc : CharClass) (rp : List Str) (addr : List Nat) (chain : List (Str × Dict Str)) (e : Elem) :
    (segments cc rp (chainPath chain) e).flatMap segStream = (tagBlocks cc rp addr chain e).flatMap blockStream := by
  match e with
  | .mk t a x cs tl =>
    rw [segments, tagBlocks]
    split
    · have := itemsElem_text addr chain (.mk t a x cs tl)
      simp only [itemsText] at this
      simp only [List.flatMap_cons, List.flatMap_nil, List.append_nil, segStream, blockStream, blockText, this,
        textNodes_flatten]
      rfl
    · rw [List.flatMap_cons, List.flatMap_cons, segmentsList_blocks cc rp addr chain 0 cs]
      congr 1
      simp [segStream, blockStream, blockText_textAt]
theorem segmentsList_blocks (cc : CharClass) (rp : List Str) (addr : List Nat) (chain : List (Str × Dict Str)) (n : Nat)
    (es : List Elem) :
    (segmentsList cc rp (chainPath chain) es).flatMap segStream =
      (tagBlocksList cc rp addr chain n es).flatMap blockStream := by
  match es with
  | [] => rfl
  | .mk t a x cs tl :: es =>
    have hpath : chainPath (chain ++ [(t, a)]) = chainPath chain ++ [component t a] := by simp [chainPath]
    have h1 := segments_blocks cc rp (addr ++ [n]) (chain ++ [(t, a)]) (.mk t a x cs tl)
    rw [hpath] at h1
    rw [segmentsList, tagBlocksList]
    simp only [List.flatMap_append, h1, segmentsList_blocks cc rp addr chain (n + 1) es, List.flatMap_cons,
      List.flatMap_nil, List.append_nil]
    have e1 : blockStream (none, if t = c!"lb" then [⟨addr, chain, none⟩] else []) = [] := by
      split <;> rfl
    rw [e1, List.nil_append]
    congr 2
    simp [segStream, blockStream, blockText_textAt]
end

/-- Whether a full tag has the begin prefix. -/
def hasBegin : Option Str → Bool
  | some v => startsWith c!"b-" v
  | none => false

/-- The characters of tokens with the value of the tag, marked where the begin prefix is. -/
def viewStream (l : List (Str × Option Str)) : List (Char × Option Str × Bool) :=
  l.flatMap (fun p => flagFirst (hasBegin p.2) (p.1.map (fun c => (c, stripTagPrefix p.2))))

theorem flagFirst_false (l : List (Char × Option Str)) : flagFirst false l = l.map (fun y => (y.1, y.2, false)) := by
  cases l <;> rfl

theorem viewStream_const (v : Option Str) (g : Str → Option Str) (ts : List Str) (h : ∀ t, stripTagPrefix (g t) = v)
    (hb : ∀ t, hasBegin (g t) = false) :
    viewStream (ts.map (fun t => (t, g t))) = ts.flatten.map (fun c => (c, v, false)) := by
  unfold viewStream
  induction ts with
  | nil => rfl
  | cons t ts ih =>
    rw [List.map_cons, List.flatMap_cons, ih, hb, flagFirst_false, h]
    simp

theorem cutAt_ne_nil (b : Char → Char → Bool) (s : Str) : ∀ t ∈ cutAt b s, t ≠ [] := by
  induction s with
  | nil => intro t ht; simp [cutAt] at ht
  | cons c s ih =>
    cases s with
    | nil => intro t ht; simp [cutAt] at ht; simp [ht]
    | cons d s =>
      intro t ht
      rw [cutAt_cons] at ht
      split at ht
      · rcases List.mem_cons.1 ht with rfl | ht
        · simp
        · exact ih t ht
      · cases hc : cutAt b (d :: s) with
        | nil => rw [hc] at ht; simp [consHead] at ht; simp [ht]
        | cons w ws =>
          rw [hc] at ht ih
          simp only [consHead] at ht
          rcases List.mem_cons.1 ht with rfl | ht
          · simp
          · exact ih t (List.mem_cons_of_mem _ ht)

theorem viewStream_segment (cc : CharClass) (s : Option Str × List Str) :
    viewStream (segmentTokens cc s) = segStream s := by
  obtain ⟨v, nodes⟩ := s
  have hf : (nodes.flatMap (cutAt (tokenBoundary cc))).flatten = nodes.flatten := by
    induction nodes with
    | nil => rfl
    | cons x xs ih => rw [List.flatMap_cons, List.flatten_append, cutAt_flatten, ih]; rfl
  have hne : ∀ t ∈ nodes.flatMap (cutAt (tokenBoundary cc)), t ≠ [] := by
    intro t ht
    obtain ⟨n, _, ht⟩ := List.mem_flatMap.1 ht
    exact cutAt_ne_nil _ _ t ht
  cases v with
  | none =>
    simp only [segmentTokens, segStream]
    rw [viewStream_const none (fun _ => none) _ (fun _ => rfl) (fun _ => rfl), hf, Option.isSome_none, flagFirst_false, List.map_map]
    rfl
  | some p =>
    simp only [segmentTokens, segStream]
    rw [← hf]
    generalize nodes.flatMap (cutAt (tokenBoundary cc)) = ts at hne
    cases ts with
    | nil => rfl
    | cons t ts =>
      have h2 := viewStream_const (some p) (fun _ => some (c!"i-" ++ p)) ts (fun _ => stripTagPrefix_i p) (fun _ => rfl)
      simp only [beginInside]
      unfold viewStream at h2 ⊢
      rw [List.flatMap_cons, h2]
      rw [show stripTagPrefix (some (c!"b-" ++ p)) = some p from stripTagPrefix_b p]
      have hb : hasBegin (some (c!"b-" ++ p)) = true := by simp [hasBegin, startsWith]
      rw [hb, Option.isSome_some]
      cases t with
      | nil => exact absurd rfl (hne [] (by simp))
      | cons c t => simp [flagFirst, Function.comp_def]

theorem viewStream_flatMap {α : Type} (g : α → List (Str × Option Str)) (l : List α) :
    viewStream (l.flatMap g) = l.flatMap (fun x => viewStream (g x)) := by
  induction l with
  | nil => rfl
  | cons x l ih => rw [List.flatMap_cons, List.flatMap_cons, ← ih]; simp [viewStream]

/-- The blocks of a whole element. -/
def rootBlocks (cc : CharClass) (rp : List Str) (f : Frame) : List TagBlock := tagBlocks cc rp [] [] f.close

/-- The characters of the loaded tokens: for each outermost tagged element, or text outside, the
characters in it. -/
theorem extract_stream (cc : CharClass) (rp : List Str) (f : Frame) (lines : List (List Tok))
    (hn : allBelow (fun tag _ => tag ≠ []) f.close)
    (h : extractContainers cc rp [f.close] = .ok lines) :
    viewStream (lines.flatten.map (fun t => (t.text, t.attrib.get? c!"tag"))) =
      (rootBlocks cc rp f).flatMap blockStream := by
  have h1 := extractContainersFrom_tags cc rp [f.close] Buf.empty lines h rfl rfl
    (fun e he => by rw [List.mem_singleton.1 he]; exact hn)
  have h2 := segments_blocks cc rp [] [] f.close
  rw [show (fun t : Tok => (t.text, t.attrib.get? c!"tag")) = tokView from rfl]
  have e : (lines.flatten.map tokView) = _ := h1
  rw [e, List.flatMap_cons, List.flatMap_nil, List.append_nil, viewStream_flatMap]
  simp only [viewStream_segment, List.flatMap_append]
  rw [show Spec.segments cc rp [] f.close = segments cc rp (chainPath []) f.close from rfl, h2]
  simp [segStream, Frame.close, Elem.tail, orEmpty, flagFirst, rootBlocks]

end Verif
