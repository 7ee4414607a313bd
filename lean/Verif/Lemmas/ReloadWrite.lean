/-
Saving a document and loading it again: what the elements written look like and where the outermost
tagged element around a token is.
-/
import Verif.Lemmas.Reload
import Verif.Lemmas.TeiRoot
import Verif.Lemmas.TeiDoc
import Verif.Lemmas.SimpleMatching

namespace Verif
open Spec

/-! ### All elements written are made from tag expressions -/

theorem allBelowList_append (p : Str → Dict Str → Prop) (a b : List Elem) :
    allBelowList p (a ++ b) ↔ allBelowList p a ∧ allBelowList p b := by
  induction a with
  | nil => simp [allBelowList]
  | cons e a ih =>
    obtain ⟨t, at', x, cs, tl⟩ := e
    simp only [List.cons_append, allBelowList, ih, and_assoc]

/-- The element and all elements below satisfy `p`. -/
def elemOk (p : Str → Dict Str → Prop) (e : Elem) : Prop := allBelowList p [e]

theorem elemOk_withTail (p : Str → Dict Str → Prop) (e : Elem) (tl : Option Str) :
    elemOk p (e.withTail tl) ↔ elemOk p e := by
  obtain ⟨t, a, x, cs, tl'⟩ := e
  simp [elemOk, Elem.withTail, allBelowList, allBelow]

theorem appendText_below (p : Str → Dict Str → Prop) (f : Frame) (s : Str) (h : allBelowList p f.children) :
    allBelowList p (f.appendText s).children := by
  unfold Frame.appendText
  split
  · exact h
  · split
    · next c hc =>
      obtain ⟨init, hi⟩ := List.getLast?_eq_some_iff.1 hc
      rw [hi, allBelowList_append] at h
      simp only [hi, List.dropLast_concat]
      rw [allBelowList_append]
      exact ⟨h.1, (elemOk_withTail p c _).2 h.2⟩
    · exact h

theorem appendText_same (f : Frame) (s : Str) :
    (f.appendText s).tag = f.tag ∧ (f.appendText s).attrib = f.attrib := by
  unfold Frame.appendText
  split
  · exact ⟨rfl, rfl⟩
  · split <;> exact ⟨rfl, rfl⟩

/-- The open elements below the container satisfy `p`, and so does everything below the open ones. -/
structure WOk (p : Str → Dict Str → Prop) (w : Writer) : Prop where
  open' : w.parents ≠ [] → p w.cur.tag w.cur.attrib ∧ ∀ f ∈ w.parents.dropLast, p f.tag f.attrib
  below : ∀ f ∈ w.cur :: w.parents, allBelowList p f.children

theorem WOk.leave {p : Str → Dict Str → Prop} {w : Writer} (h : WOk p w) : WOk p w.leave := by
  unfold Writer.leave
  split
  · exact h
  · next q qs hq =>
    obtain ⟨h1, h2⟩ := h
    rw [hq] at h1 h2
    have h1 := h1 (by simp)
    refine ⟨?_, ?_⟩
    · intro hne
      refine ⟨?_, ?_⟩
      · apply h1.2 q
        cases qs with
        | nil => exact absurd rfl hne
        | cons a as => rw [List.dropLast_cons_cons]; simp
      · intro f hf
        apply h1.2 f
        cases qs with
        | nil => exact absurd rfl hne
        | cons a as => rw [List.dropLast_cons_cons]; exact List.mem_cons_of_mem _ hf
    · intro f hf
      rcases List.mem_cons.1 hf with rfl | hf
      · simp only [Frame.append]
        rw [allBelowList_append]
        refine ⟨h2 q (by simp), ?_⟩
        simp only [Frame.close, allBelowList, allBelow, and_true]
        exact ⟨h1.1, h2 _ (by simp)⟩
      · exact h2 f (by simp [hf])

theorem WOk.leaveN {p : Str → Dict Str → Prop} (n : Nat) {w : Writer} (h : WOk p w) : WOk p (w.leaveN n) := by
  induction n generalizing w with
  | zero => exact h
  | succ n ih => exact ih h.leave

theorem WOk.appendText {p : Str → Dict Str → Prop} {w : Writer} (h : WOk p w) (s : Str) : WOk p (w.appendText s) := by
  refine ⟨?_, ?_⟩
  · intro hne
    have := h.open' hne
    simp only [Writer.appendText, (appendText_same w.cur s).1, (appendText_same w.cur s).2]
    exact this
  · intro f hf
    rcases List.mem_cons.1 hf with rfl | hf
    · exact appendText_below p _ s (h.below _ (by simp))
    · exact h.below f (by rw [List.mem_cons]; exact .inr hf)

theorem WOk.append {p : Str → Dict Str → Prop} {w : Writer} (h : WOk p w) (e : Elem) (he : elemOk p e) :
    WOk p (w.append e) := by
  refine ⟨h.open', ?_⟩
  intro f hf
  rcases List.mem_cons.1 hf with rfl | hf
  · simp only [Writer.append, Frame.append]
    rw [allBelowList_append]
    exact ⟨h.below _ (by simp), he⟩
  · exact h.below f (by rw [List.mem_cons]; exact .inr hf)

/-- What `parseTagExpression` gives satisfies `p`. -/
def Parsed (p : Str → Dict Str → Prop) : Prop := ∀ s t a, parseTagExpression s = .ok (t, a) → p t a

theorem WOk.enterPath {p : Str → Dict Str → Prop} (hp : Parsed p) (ok : Str → Dict Str → Bool) (fs : List Str)
    {w w' : Writer} (h : WOk p w) (he : enterPath ok fs w = .ok w') : WOk p w' := by
  induction fs generalizing w with
  | nil => cases he; exact h
  | cons f fs ih =>
    simp only [Verif.enterPath] at he
    split at he
    · cases he
    · next t a hpe =>
      split at he
      · refine ih ?_ he
        refine ⟨?_, ?_⟩
        · intro _
          refine ⟨hp f t a hpe, ?_⟩
          intro g hg
          simp only at hg
          by_cases hn : w.parents = []
          · rw [hn] at hg; simp at hg
          · obtain ⟨q, qs, hqs⟩ := List.exists_cons_of_ne_nil hn
            have := h.open' hn
            rw [hqs, List.dropLast_cons_cons] at hg
            rcases List.mem_cons.1 hg with rfl | hg
            · exact this.1
            · exact this.2 g (by rw [hqs]; exact hg)
        · intro g hg
          rcases List.mem_cons.1 hg with rfl | hg
          · trivial
          · exact h.below g hg
      · cases he

theorem WOk.requirePath {p : Str → Dict Str → Prop} (hp : Parsed p) (ok : Str → Dict Str → Bool) (req : List Str)
    {w w' : Writer} (h : WOk p w) (he : requirePath ok req w = .ok w') : WOk p w' := by
  unfold Verif.requirePath at he
  split at he
  · cases he; exact h
  · simp only at he
    refine WOk.enterPath hp ok _ ?_ he
    exact ⟨(h.leaveN _).open', (h.leaveN _).below⟩

theorem WOk.flushPending {p : Str → Dict Str → Prop} (hp : Parsed p) (cfg : WriteCfg) (req : List Str) (ss : List Str)
    {w w' : Writer} (h : WOk p w) (he : flushPending cfg req ss w = .ok w') : WOk p w' := by
  induction ss generalizing w with
  | nil => cases he; exact h
  | cons s ss ih =>
    simp only [Verif.flushPending] at he
    split at he
    · cases he
    · next w1 h1 => exact ih ((WOk.requirePath hp cfg.okNode _ h h1).appendText s) he

theorem WOk.writeToken {p : Str → Dict Str → Prop} (hp : Parsed p) (cfg : WriteCfg) (t : Tok) {st st' : WState}
    (h : WOk p st.w) (he : writeToken cfg st t = .ok st') : WOk p st'.w := by
  unfold Verif.writeToken at he
  simp only at he
  split at he
  · cases he; exact h
  · split at he
    · cases he
    · next w1 h1 =>
      have hw1 : WOk p w1 := by
        split at h1
        · exact WOk.requirePath hp _ _ h h1
        · split at h1
          · exact WOk.requirePath hp _ _ h h1
          · split at h1
            · exact WOk.requirePath hp _ _ h h1
            · cases h1; exact h
      split at he
      · cases he
      · next w2 h2 =>
        have hw2 := WOk.flushPending hp cfg _ _ hw1 h2
        split at he
        · cases he
        · next w3 h3 =>
          cases he
          exact (WOk.requirePath hp _ _ hw2 h3).appendText _

theorem WOk.writeTokens {p : Str → Dict Str → Prop} (hp : Parsed p) (cfg : WriteCfg) (ts : List Tok) {st st' : WState}
    (h : WOk p st.w) (he : writeTokens cfg st ts = .ok st') : WOk p st'.w := by
  induction ts generalizing st with
  | nil => cases he; exact h
  | cons t ts ih =>
    simp only [Verif.writeTokens] at he
    split at he
    · cases he
    · next st1 h1 => exact ih (WOk.writeToken hp cfg t h h1) he

theorem WOk.writeLines {p : Str → Dict Str → Prop} (hp : Parsed p) (hlb : p c!"lb" []) (cfg : WriteCfg) (ls : List (List Tok))
    (first : Bool) {st st' : WState} (h : WOk p st.w) (he : writeLines cfg first st ls = .ok st') : WOk p st'.w := by
  induction ls generalizing st first with
  | nil => cases he; exact h
  | cons l ls ih =>
    simp only [Verif.writeLines] at he
    split at he
    · cases he
    · next st1 h1 =>
      refine ih false (WOk.writeTokens hp cfg l ?_ h1) he
      split
      · exact h
      · exact h.append lbElem (by simp [elemOk, lbElem, lbTag, allBelowList, allBelow, hlb])

/-- Every element written satisfies `p`, if line breaks and what tag expressions ask for do. -/
theorem linesToTei_below {p : Str → Dict Str → Prop} (hp : Parsed p) (hlb : p c!"lb" []) (cfg : WriteCfg) (tag : Str)
    (attrib : Dict Str) (lines : List (List Tok)) (f : Frame)
    (h : linesToTei cfg ⟨tag, attrib, none, []⟩ lines = .ok f) : allBelow p f.close := by
  unfold linesToTei at h
  split at h
  · cases h
  · next st hst =>
    split at h
    · cases h
    · next w hw =>
      cases h
      have h0 : WOk p (⟨⟨⟨tag, attrib, none, []⟩, [], []⟩, [], []⟩ : WState).w :=
        ⟨fun hne => absurd rfl hne, fun f hf => by rw [List.mem_singleton.1 hf]; trivial⟩
      have h1 := WOk.flushPending hp cfg _ _ (WOk.writeLines hp hlb cfg lines true h0 hst) hw
      have h2 := (h1.leaveN w.parents.length).below _ (List.mem_cons_self ..)
      simpa [Frame.close, allBelow, Writer.finish] using h2

theorem parsed_named : Parsed (fun tag _ => tag ≠ []) := by
  intro s t a h
  unfold parseTagExpression at h
  simp only at h
  split at h
  · cases h
  · next hne =>
    split at h
    · cases h; simpa using hne
    · split at h
      · cases h; simpa using hne
      · cases h

theorem parsed_attribs : Parsed (fun _ a => a.length ≤ 1) := by
  intro s t a h
  unfold parseTagExpression at h
  simp only at h
  split at h
  · cases h
  · split at h
    · cases h; simp
    · split at h
      · cases h; simp
      · cases h

/-! ### The outermost tagged element around a token -/

theorem chainPath_eq {path : List Str} {chain : List (Str × Dict Str)}
    (h : path.map parseTagExpression = chain.map .ok) (hs : ∀ f ∈ path, Stable f) : chainPath chain = path := by
  induction path generalizing chain with
  | nil =>
    cases chain with
    | nil => rfl
    | cons c cs => simp at h
  | cons f fs ih =>
    cases chain with
    | nil => simp at h
    | cons c cs =>
      simp only [List.map_cons, List.cons.injEq] at h
      have h1 := (hs f (by simp) c.1 c.2 h.1).1
      have h2 := ih h.2 (fun g hg => hs g (by simp [hg]))
      simp only [chainPath, List.map_cons] at h2 ⊢
      rw [h1, h2]

theorem mainPath_prefix (mapping : Dict Str) (t : Tok) : mainPath mapping t <+: tokenPath mapping t := by
  unfold tokenPath
  split
  · next h => exact h.2.2
  · exact List.prefix_refl _

theorem find_depths (P : Nat → Bool) (n m : Nat) (hm : m ≤ n) (hP : P m = true) (d : Nat) (hd : d ≤ m)
    (hlt : ∀ k, d ≤ k → k < m → P k = false) : (depths d n).find? P = some m := by
  generalize hg : m - d = g
  induction g generalizing d with
  | zero =>
    have : d = m := by omega
    subst this
    rw [depths_cons _ _ hm, List.find?_cons_of_pos hP]
  | succ g ih =>
    rw [depths_cons _ _ (by omega), List.find?_cons_of_neg (by rw [hlt d (by omega) (by omega)]; simp)]
    exact ih (d + 1) (by omega) (fun k h1 h2 => hlt k (by omega) h2) (by omega)

theorem mem_pieceItems {ps : List Piece} {it : Item} (h : it ∈ ps.flatMap Piece.items) {c : Char} (hc : it.ch = some c) :
    ∃ q ∈ ps, ∃ u, q.tok = some u ∧ it.addr = q.addr ∧ it.chain = q.chain ∧ c ∈ u.text := by
  obtain ⟨q, hq, hit⟩ := List.mem_flatMap.1 h
  refine ⟨q, hq, ?_⟩
  unfold Piece.items at hit
  split at hit
  · rw [List.mem_singleton.1 hit] at hc; cases hc
  · next u hu =>
    obtain ⟨c', hc', rfl⟩ := List.mem_map.1 hit
    refine ⟨u, hu, rfl, rfl, ?_⟩
    simp only [Option.some.injEq] at hc
    rw [← hc]; exact hc'

theorem blank_false_of_mem {cc : CharClass} {u : Tok} {c : Char} (h : c ∈ u.text) (hs : cc.isSpace c = false) :
    blank cc u = false := by
  unfold blank
  rw [List.all_eq_false]
  exact ⟨c, h, by simp [hs]⟩

theorem exists_char_of_text {cc : CharClass} {u : Tok} (h : blank cc u = false) : ∃ c ∈ u.text, cc.isSpace c = false := by
  unfold blank at h
  rw [List.all_eq_false] at h
  obtain ⟨c, h1, h2⟩ := h
  exact ⟨c, h1, by simpa using h2⟩

/-- The tag a token is loaded with. -/
def loadedTag (mapping : Dict Str) (t : Tok) : Option Str :=
  if mainPath mapping t = [] then none else some (joinWith c!"/" (mainPath mapping t))

/-- The depth of the outermost tagged element around a text token. -/
def mainDepth (mapping : Dict Str) (t : Tok) : Option Nat :=
  if mainPath mapping t = [] then none else some (mainPath mapping t).length

theorem outerDepth_piece (cc : CharClass) (mapping : Dict Str) (f : Frame) (ps : List Piece) (toks : List Tok)
    (hitems : Spec.items f.close = ps.flatMap Piece.items)
    (htoks : ps.filterMap (·.tok) = toks)
    (hgood : GoodPieces cc mapping ps)
    (hd : ∀ t ∈ toks, blank cc t = false → Distinct cc mapping toks t)
    (p : Piece) (hp : p ∈ ps) (t : Tok) (ht : p.tok = some t) (hb : blank cc t = false)
    (it : Item) (ha : it.addr = p.addr) (hch : it.chain = p.chain) :
    (depths 1 it.addr.length).find? (marked cc (mapping.map (·.2)) (Spec.items f.close) it) = mainDepth mapping t ∧
      chainPath (it.chain.take (mainPath mapping t).length) = mainPath mapping t := by
  have hmemt : ∀ q ∈ ps, ∀ u, q.tok = some u → u ∈ toks := by
    intro q hq u hu
    rw [← htoks, List.mem_filterMap]; exact ⟨q, hq, hu⟩
  have hplace : ∀ q ∈ ps, ∀ u, q.tok = some u → blank cc u = false →
      chainPath q.chain = tokenPath mapping u ∧ q.addr.length = (tokenPath mapping u).length ∧
      q.chain.length = (tokenPath mapping u).length := by
    intro q hq u hu hbu
    obtain ⟨pre, post, hs⟩ := List.append_of_mem hq
    have hg := hgood pre q post u hs hu hbu
    have := chainPath_eq hg.chain (hd u (hmemt q hq u hu) hbu).stable
    refine ⟨this, hg.len, ?_⟩
    rw [← this, chainPath, List.length_map]
  have D := hd t (hmemt p hp t ht) hb
  obtain ⟨h1, h2, h3⟩ := hplace p hp t ht hb
  have hpre := mainPath_prefix mapping t
  unfold mainDepth
  by_cases hm : mainPath mapping t = []
  · refine ⟨?_, by rw [hm]; rfl⟩
    rw [if_pos hm, ha, depths_nil]
    · rfl
    · rw [h2, D.main hm]; simp
  · rw [if_neg hm]
    have hlen := hpre.length_le
    have hpos := List.length_pos_iff.2 hm
    have htake : ∀ k, k ≤ (mainPath mapping t).length → chainPath (p.chain.take k) = (mainPath mapping t).take k := by
      intro k hk
      rw [chainPath, List.map_take, ← chainPath, h1]
      obtain ⟨r, hr⟩ := hpre
      rw [← hr, List.take_append_of_le_length hk]
    have hfull : chainPath (p.chain.take (mainPath mapping t).length) = mainPath mapping t := by
      rw [htake _ (Nat.le_refl _), List.take_length]
    refine ⟨?_, by rw [hch, hfull]⟩
    refine find_depths _ _ (mainPath mapping t).length (by rw [ha, h2]; exact hlen) ?_ 1 hpos ?_
    · unfold marked
      rw [hch, hfull]
      rcases D.configured with hc | hc
      · simp only [Bool.or_eq_true]
        right
        simpa using hc
      · simp only [Bool.or_eq_true]
        left
        have hl : p.addr.take (mainPath mapping t).length = p.addr := by
          rw [← hc, ← h2, List.take_length]
        rw [ha, hl, hitems]
        obtain ⟨c, hc1, hc2⟩ := exists_char_of_text hb
        unfold directText
        rw [List.any_eq_true]
        refine ⟨⟨p.addr, p.chain, some c⟩, ?_, by simp [hc2]⟩
        refine List.mem_flatMap.2 ⟨p, hp, ?_⟩
        unfold Piece.items
        rw [ht]
        exact List.mem_map.2 ⟨c, hc1, rfl⟩
    · intro k hk1 hk2
      obtain ⟨o1, o2⟩ := D.outermost k (by omega) hk2
      unfold marked
      rw [hch, htake k (by omega), Bool.or_eq_false_iff]
      refine ⟨?_, by simpa using o1⟩
      rw [Bool.eq_false_iff]
      intro hdt
      unfold directText at hdt
      rw [List.any_eq_true] at hdt
      obtain ⟨it', hit', hh⟩ := hdt
      simp only [Bool.and_eq_true, beq_iff_eq] at hh
      cases hc : it'.ch with
      | none => rw [hc] at hh; simp at hh
      | some c =>
        rw [hc] at hh
        have hsp : cc.isSpace c = false := by simpa using hh.2
        obtain ⟨q, hq, u, hu, hqa, hqc, hcu⟩ := mem_pieceItems (hitems ▸ hit') hc
        have hbu := blank_false_of_mem hcu hsp
        obtain ⟨g1, g2, g3⟩ := hplace q hq u hu hbu
        apply o2 u (hmemt q hq u hu) hbu
        rw [← g1]
        have hak : q.addr = p.addr.take k := by rw [← hqa, hh.1, ha]
        -- an item of the token itself
        obtain ⟨c0, hc0, _⟩ := exists_char_of_text hb
        have hmem : (⟨p.addr, p.chain, some c0⟩ : Item) ∈ Spec.items f.close := by
          rw [hitems]
          refine List.mem_flatMap.2 ⟨p, hp, ?_⟩
          unfold Piece.items
          rw [ht]
          exact List.mem_map.2 ⟨c0, hc0, rfl⟩
        have hpc := itemsElem_chain [] [] f.close it' ⟨p.addr, p.chain, some c0⟩ hit' hmem
          (by rw [hqa, hak]; exact List.take_prefix _ _)
        rw [hqc] at hpc
        have hcl : q.chain.length = k := by
          rw [g3, ← g2, hak, List.length_take, h2]
          omega
        have : q.chain = p.chain.take k := by
          have := List.prefix_iff_eq_take.1 hpc
          rw [hcl] at this
          exact this
        rw [this, htake k (by omega)]

theorem outerTag_piece (cc : CharClass) (mapping : Dict Str) (f : Frame) (ps : List Piece) (toks : List Tok)
    (hitems : Spec.items f.close = ps.flatMap Piece.items)
    (htoks : ps.filterMap (·.tok) = toks)
    (hgood : GoodPieces cc mapping ps)
    (hd : ∀ t ∈ toks, blank cc t = false → Distinct cc mapping toks t)
    (p : Piece) (hp : p ∈ ps) (t : Tok) (ht : p.tok = some t) (hb : blank cc t = false)
    (it : Item) (ha : it.addr = p.addr) (hch : it.chain = p.chain) :
    outerTag cc (mapping.map (·.2)) (Spec.items f.close) 1 it = loadedTag mapping t := by
  obtain ⟨h1, h2⟩ := outerDepth_piece cc mapping f ps toks hitems htoks hgood hd p hp t ht hb it ha hch
  unfold outerTag loadedTag
  rw [h1, mainDepth]
  split
  · rfl
  · rw [Option.map_some, h2]

/-- The characters of the written element that are not white space, with the tags they are loaded
with. -/
theorem itemChars_pieces (cc : CharClass) (g : Item → Option Str) (ps : List Piece) (lbl : Tok → Option Str)
    (h : ∀ p ∈ ps, ∀ t, p.tok = some t → blank cc t = false → ∀ it : Item, it.addr = p.addr → it.chain = p.chain → g it = lbl t) :
    (itemChars g (ps.flatMap Piece.items)).filter (fun x => !cc.isSpace x.1) =
      (ps.filterMap (·.tok)).flatMap (fun t => (t.text.filter (fun c => !cc.isSpace c)).map (fun c => (c, lbl t))) := by
  induction ps with
  | nil => rfl
  | cons p ps ih =>
    rw [List.flatMap_cons, itemChars_append, List.filter_append, ih (fun q hq => h q (by simp [hq]))]
    have hp := h p (by simp)
    cases ht : p.tok with
    | none =>
      rw [List.filterMap_cons_none ht]
      simp [Piece.items, ht, itemChars]
    | some t =>
      rw [List.filterMap_cons_some ht, List.flatMap_cons]
      congr 1
      simp only [Piece.items, ht]
      cases hb : blank cc t with
      | true =>
        have : t.text.filter (fun c => !cc.isSpace c) = [] := by
          rw [List.filter_eq_nil_iff]
          intro c hc
          unfold blank at hb
          simp [List.all_eq_true.1 hb c hc]
        rw [this, List.map_nil, List.filter_eq_nil_iff]
        intro x hx
        unfold itemChars at hx
        obtain ⟨it, h1, h2⟩ := List.mem_filterMap.1 hx
        obtain ⟨c, hc, rfl⟩ := List.mem_map.1 h1
        simp only [Option.map_some, Option.some.injEq] at h2
        rw [← h2]
        unfold blank at hb
        simp [List.all_eq_true.1 hb c hc]
      | false =>
        rw [itemChars_textAt _ _ _ _ (lbl t) (hp t ht hb)]
        rw [List.filter_map]
        rfl

/-! ### The tags loaded -/

/-- A tag value, where the empty value is no tag. -/
def normTag (v : Str) : Option Str := if v = [] then none else some v

theorem mainValue_eq (t : Tok) : mainValue t = (stripTagPrefix (fullTag t)).bind normTag := by
  unfold mainValue normTag
  rw [← stripTagPrefix_eq_tagValue]
  cases stripTagPrefix (fullTag t) with
  | none => rfl
  | some v => cases v <;> simp

theorem normTag_getD (x : Option Str) : normTag ((x.bind normTag).getD []) = x.bind normTag := by
  cases x with
  | none => rfl
  | some v =>
    unfold normTag
    by_cases h : v = [] <;> simp [h]

theorem mainValue_normTag (t : Tok) : normTag ((mainValue t).getD []) = mainValue t := by
  rw [mainValue_eq, normTag_getD]

theorem splitPath_ne_nil (s : Str) : splitPath s ≠ [] := by
  unfold splitPath
  generalize false = b, ([] : Str) = acc
  induction s generalizing b acc with
  | nil => simp [splitPathAux]
  | cons c s ih =>
    simp only [splitPathAux]
    split
    · simp
    · exact ih _ _

theorem mainValue_of_noPath (mapping : Dict Str) (t : Tok) (h : mainPath mapping t = []) : mainValue t = none := by
  rw [mainValue_eq]
  unfold mainPath tagRequiredPath at h
  unfold stripTagPrefix
  split at h
  · exact absurd h (splitPath_ne_nil _)
  · next hne =>
    cases hx : (splitTagPrefix (fullTag t)).2 with
    | none => rfl
    | some v =>
      cases v with
      | nil => rfl
      | cons c v => exact absurd hx (hne c v)

/-- The tag of a loaded token: none or a path with a prefix. -/
theorem loaded_tag_form (cc : CharClass) (rp : List Str) (e : Elem) (lines : List (List Tok))
    (hn : allBelow (fun tag _ => tag ≠ []) e)
    (h : extractContainers cc rp [e] = .ok lines) (t : Tok) (ht : t ∈ lines.flatten) :
    t.attrib.get? c!"tag" = none ∨ ∃ p, t.attrib.get? c!"tag" = some (c!"b-" ++ p) ∨
      t.attrib.get? c!"tag" = some (c!"i-" ++ p) := by
  have h1 := extractContainersFrom_tags cc rp [e] Buf.empty lines h rfl rfl
    (fun e' he => by rw [List.mem_singleton.1 he]; exact hn)
  have hm : tokView t ∈ lines.flatten.map tokView := List.mem_map.2 ⟨t, ht, rfl⟩
  have e1 : lines.flatten.map tokView = _ := h1
  rw [e1] at hm
  obtain ⟨e', _, hm⟩ := List.mem_flatMap.1 hm
  obtain ⟨s, _, hm⟩ := List.mem_flatMap.1 hm
  obtain ⟨v, nodes⟩ := s
  have ht : (tokView t).2 = t.attrib.get? c!"tag" := rfl
  rw [← ht]
  cases v with
  | none =>
    left
    simp only [segmentTokens] at hm
    obtain ⟨x, _, hx⟩ := List.mem_map.1 hm
    rw [← hx]
  | some p =>
    right
    refine ⟨p, ?_⟩
    simp only [segmentTokens] at hm
    generalize nodes.flatMap (cutAt (tokenBoundary cc)) = ts at hm
    cases ts with
    | nil => simp [beginInside] at hm
    | cons x xs =>
      simp only [beginInside] at hm
      rcases List.mem_cons.1 hm with hm | hm
      · left; rw [hm]
      · right
        obtain ⟨y, _, hy⟩ := List.mem_map.1 hm
        rw [← hy]

theorem flatMap_range {α β : Type} (F : Nat → List β) (G : α → List β) (l : List α)
    (h : ∀ i x, l[i]? = some x → F i = G x) : (List.range l.length).flatMap F = l.flatMap G := by
  induction l generalizing F with
  | nil => rfl
  | cons x l ih =>
    rw [List.length_cons, List.range_succ_eq_map, List.flatMap_cons, List.flatMap_cons, List.flatMap_map,
      h 0 x rfl]
    congr 1
    exact ih (fun i => F (i + 1)) (fun i y hy => h (i + 1) y hy)

theorem mainValue_renamed (m : Dict Str) (t u : Tok)
    (h1 : t.attrib.get? c!"tag" = none)
    (h2 : t.attrib.get? c!"preserved_tag" = (u.attrib.get? c!"tag").map (renameTag (tagOfPath m)))
    (h3 : u.attrib.get? c!"tag" = none ∨ ∃ p, u.attrib.get? c!"tag" = some (c!"b-" ++ p) ∨
      u.attrib.get? c!"tag" = some (c!"i-" ++ p)) :
    mainValue t = (stripTagPrefix (u.attrib.get? c!"tag")).bind (fun p => normTag (tagOfPath m p)) := by
  have hf : fullTag t = (u.attrib.get? c!"tag").map (renameTag (tagOfPath m)) := by
    unfold fullTag
    rw [h1, h2]; rfl
  rw [mainValue_eq, hf]
  rcases h3 with h3 | ⟨p, h3 | h3⟩
  · rw [h3]; rfl
  · rw [h3, show stripTagPrefix (some (c!"b-" ++ p)) = some p from stripTagPrefix_b p]
    show (stripTagPrefix (some (withPrefix c!"b-" (tagOfPath m p)))).bind normTag = normTag (tagOfPath m p)
    unfold withPrefix
    by_cases hp : tagOfPath m p = []
    · rw [if_pos hp, hp]; rfl
    · rw [if_neg hp, show stripTagPrefix (some (c!"b-" ++ tagOfPath m p)) = some (tagOfPath m p) from stripTagPrefix_b _]; rfl
  · rw [h3, show stripTagPrefix (some (c!"i-" ++ p)) = some p from stripTagPrefix_i p]
    show (stripTagPrefix (some (withPrefix c!"i-" (tagOfPath m p)))).bind normTag = normTag (tagOfPath m p)
    unfold withPrefix
    by_cases hp : tagOfPath m p = []
    · rw [if_pos hp, hp]; rfl
    · rw [if_neg hp, show stripTagPrefix (some (c!"i-" ++ tagOfPath m p)) = some (tagOfPath m p) from stripTagPrefix_i _]; rfl

/-! ### Checking the paths of the tags in use -/

theorem tagRequiredPath_norm (mapping : Dict Str) (v : Option Str) :
    tagRequiredPath mapping (v.bind normTag) = tagRequiredPath mapping v := by
  cases v with
  | none => rfl
  | some v => cases v <;> rfl

theorem mainPath_value (mapping : Dict Str) (t : Tok) : mainPath mapping t = tagRequiredPath mapping (mainValue t) := by
  rw [mainValue_eq, tagRequiredPath_norm]; rfl

theorem subValue_eq (t : Tok) : subValue t = (stripTagPrefix (fullSubTag t)).bind normTag := by
  unfold subValue normTag
  rw [← stripTagPrefix_eq_tagValue]
  cases stripTagPrefix (fullSubTag t) with
  | none => rfl
  | some v => cases v <;> simp

theorem subPath_value (mapping : Dict Str) (t : Tok) : subPath mapping t = tagRequiredPath mapping (subValue t) := by
  rw [subValue_eq, tagRequiredPath_norm]; rfl

/-- The paths tokens with the main tag `v` may have, for given sub tags. -/
def candidates (mapping : Dict Str) (subs : List (Option Str)) (v : Option Str) : List (List Str) :=
  tagRequiredPath mapping v ::
    (subs.map (tagRequiredPath mapping)).filter (fun p => (tagRequiredPath mapping v).isPrefixOf p)

theorem tokenPath_mem (mapping : Dict Str) (subs : List (Option Str)) (t : Tok) (h : subValue t ∈ subs) :
    tokenPath mapping t ∈ candidates mapping subs (mainValue t) := by
  unfold tokenPath candidates
  split
  · next hs =>
    refine List.mem_cons_of_mem _ (List.mem_filter.2 ⟨List.mem_map.2 ⟨_, h, (subPath_value mapping t).symm⟩, ?_⟩)
    rw [← mainPath_value]
    exact List.isPrefixOf_iff_prefix.2 hs.2.2
  · rw [← mainPath_value]; exact List.mem_cons_self ..

def stableB (f : Str) : Bool :=
  match parseTagExpression f with
  | .ok (t, a) => decide (component t a = f) && decide (t ≠ c!"lb")
  | .error _ => true

theorem stable_of_stableB {f : Str} (h : stableB f = true) : Stable f := by
  intro t a hp
  unfold stableB at h
  rw [hp] at h
  simpa using h

/-- Whether the tags `mains` with the sub tags `subs` can be told apart. -/
def distinctB (mapping : Dict Str) (mains subs : List (Option Str)) : Bool :=
  mains.all (fun v =>
    let m := tagRequiredPath mapping v
    (candidates mapping subs v).all (fun p => p.all stableB && (!m.isEmpty || p.isEmpty) &&
      (decide (joinWith c!"/" m ∈ mapping.map (·.2)) || decide (p = m))) &&
    (List.range m.length).all (fun k => decide (k = 0) ||
      (decide (joinWith c!"/" (m.take k) ∉ mapping.map (·.2)) &&
        mains.all (fun u => (candidates mapping subs u).all (fun p => decide (p ≠ m.take k))))) &&
    (m.isEmpty || decide (tagOfPath mapping (joinWith c!"/" m) = v.getD [])))

theorem distinct_of_distinctB (cc : CharClass) (mapping : Dict Str) (mains subs : List (Option Str))
    (h : distinctB mapping mains subs = true) (toks : List Tok)
    (ht : ∀ t ∈ toks, blank cc t = false → mainValue t ∈ mains ∧ subValue t ∈ subs) (t : Tok) (hm : t ∈ toks)
    (hb : blank cc t = false) : Distinct cc mapping toks t := by
  unfold distinctB at h
  rw [List.all_eq_true] at h
  have h1 := h _ (ht t hm hb).1
  simp only [Bool.and_eq_true] at h1
  rw [← mainPath_value] at h1
  obtain ⟨⟨a1, a2⟩, a3⟩ := h1
  rw [List.all_eq_true] at a1 a2
  have b := a1 _ (tokenPath_mem mapping subs t (ht t hm hb).2)
  simp only [Bool.and_eq_true, Bool.or_eq_true, List.all_eq_true, decide_eq_true_eq] at b
  obtain ⟨⟨b1, b2⟩, b3⟩ := b
  refine ⟨fun f hf => stable_of_stableB (b1 f hf), ?_, b3, ?_, ?_⟩
  · intro hn
    rcases b2 with b2 | b2
    · rw [hn] at b2; simp at b2
    · exact List.isEmpty_iff.1 b2
  · intro k hk1 hk2
    have c := a2 k (List.mem_range.2 hk2)
    simp only [Bool.and_eq_true, Bool.or_eq_true, List.all_eq_true, decide_eq_true_eq] at c
    rcases c with c | c
    · omega
    · refine ⟨c.1, fun u hu hbu => ?_⟩
      exact c.2 _ (ht u hu hbu).1 _ (tokenPath_mem mapping subs u (ht u hu hbu).2)
  · intro hne
    rw [Bool.or_eq_true] at a3
    rcases a3 with a3 | a3
    · exact absurd (List.isEmpty_iff.1 a3) hne
    · exact of_decide_eq_true a3

end Verif
