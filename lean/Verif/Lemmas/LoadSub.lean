/-
Loading elements without text in sub elements: no token that is not white space has a sub tag.
-/
import Verif.Lemmas.ReloadBlocks
import Verif.Lemmas.LoadText

namespace Verif
open Spec

/-- White space, or without sub tag. -/
def NoSubTok (cc : CharClass) (t : Tok) : Prop := blank cc t = false → t.attrib.get? c!"level2_tag" = none

theorem appendToken_noSub {cc : CharClass} {b : Buf} (h : BufAll (NoSubTok cc) b) (s : Str)
    (hs : b.nextSub = none ∨ s.all cc.isSpace = true) : BufAll (NoSubTok cc) (b.appendToken cc s) := by
  unfold Buf.appendToken BufAll
  unfold BufAll at h
  intro t ht
  rcases List.mem_cons.1 ht with rfl | ht
  · intro hb
    rcases hs with hs | hs
    · rw [hs]
      cases b.nextTag <;> rfl
    · unfold blank at hb
      rw [toTextToken_text, hs] at hb
      cases hb
  · cases hb : b.rev with
    | nil => rw [hb] at ht; simp at ht
    | cons x xs =>
      rw [hb] at ht h
      rcases List.mem_cons.1 ht with rfl | ht
      · exact h x (by simp)
      · exact h t (List.mem_cons_of_mem _ ht)

theorem appendText_noSub {cc : CharClass} {b : Buf} (h : BufAll (NoSubTok cc) b) (x : Option Str)
    (hs : b.nextSub = none ∨ (orEmpty x).all cc.isSpace = true) :
    BufAll (NoSubTok cc) (b.appendText cc x) ∧ (b.nextSub = none → (b.appendText cc x).nextSub = none) := by
  cases x with
  | none => exact ⟨h, id⟩
  | some s =>
    have hf : ∀ (ss : List Str) (b : Buf), BufAll (NoSubTok cc) b → (b.nextSub = none ∨ ss.flatten.all cc.isSpace = true) →
        BufAll (NoSubTok cc) (b.appendTokens cc ss) ∧ (b.nextSub = none → (b.appendTokens cc ss).nextSub = none) := by
      intro ss
      induction ss with
      | nil => exact fun _ h _ => ⟨h, id⟩
      | cons s ss ih =>
        intro b h hs
        have hn : b.nextSub = none → (b.appendToken cc s).nextSub = none := by
          intro hn
          unfold Buf.appendToken
          rw [hn]; rfl
        rw [List.flatten_cons, List.all_append, Bool.and_eq_true] at hs
        obtain ⟨h1, h2⟩ := ih (b.appendToken cc s) (appendToken_noSub h s (hs.imp id (·.1))) (hs.imp hn (·.2))
        exact ⟨h1, fun hb => h2 (hn hb)⟩
    simp only [Buf.appendText]
    split
    · exact ⟨h, id⟩
    · apply hf _ _ h
      rw [tokenizeText_flatten]
      exact hs

mutual
/-- White space only. -/
theorem extractElem_blank (cc : CharClass) (rp : List Str) (e : Elem) (path : List Str) (b : Buf)
    (hb : BufAll (NoSubTok cc) b) (he : (itertext e ++ orEmpty e.tail).all cc.isSpace = true)
    (r : List (List Tok) × Buf) (h : extractElem cc rp e path b = .ok r) :
    (∀ l ∈ r.1, ∀ t ∈ l, NoSubTok cc t) ∧ BufAll (NoSubTok cc) r.2 := by
  match e with
  | .mk tg a x cs tl =>
    simp only [itertext, Elem.tail, List.all_append, Bool.and_eq_true] at he
    simp only [extractElem] at h
    split at h
    · cases h
    · next lines b3 hc =>
      cases h
      have h0 := extractChildren_blank cc rp cs path _ (by
        refine (appendText_noSub ?_ x (.inr he.1.1)).1
        split
        · split <;> exact hb
        · exact hb) he.1.2 _ hc
      refine ⟨h0.1, (appendText_noSub ?_ tl (.inr he.2)).1⟩
      split <;> exact h0.2
theorem extractChildren_blank (cc : CharClass) (rp : List Str) (es : List Elem) (path : List Str) (b : Buf)
    (hb : BufAll (NoSubTok cc) b) (he : (itertextList es).all cc.isSpace = true)
    (r : List (List Tok) × Buf) (h : extractChildren cc rp es path b = .ok r) :
    (∀ l ∈ r.1, ∀ t ∈ l, NoSubTok cc t) ∧ BufAll (NoSubTok cc) r.2 := by
  match es with
  | [] => simp only [extractChildren] at h; cases h; exact ⟨by simp, hb⟩
  | .mk tag attrib text children tail :: es =>
    simp only [itertextList] at he
    rw [List.all_append, Bool.and_eq_true] at he
    simp only [extractChildren] at h
    split at h
    · cases h
    · split at h
      · cases h
      · next h1 =>
        split at h
        · cases h
        · next h2 =>
          cases h
          have a1 := extractElem_blank cc rp (.mk tag attrib text children tail) _ _ (by
            split
            · exact (bufAll_flush hb).2
            · exact hb) he.1 _ h1
          have a2 := extractChildren_blank cc rp es path _ a1.2 he.2 _ h2
          refine ⟨?_, a2.2⟩
          intro l hl
          rw [List.mem_append, List.mem_append] at hl
          rcases hl with (hl | hl) | hl
          · split at hl
            · rw [List.mem_singleton] at hl
              subst hl
              exact (bufAll_flush hb).1
            · simp at hl
          · exact a1.1 l hl
          · exact a2.1 l hl
end

/-- The child elements hold white space only (their tails may be text). -/
def LeafSpace (cc : CharClass) (es : List Elem) : Prop := ∀ e ∈ es, (itertext e).all cc.isSpace = true

theorem extractElem_insideSub (cc : CharClass) (rp : List Str) (e : Elem) (path : List Str) (b : Buf)
    (hb : BufAll (NoSubTok cc) b) (hg : GoodTag b.nextTag) (he : (itertext e).all cc.isSpace = true)
    (r : List (List Tok) × Buf) (h : extractElem cc rp e path b = .ok r) :
    (∀ l ∈ r.1, ∀ t ∈ l, NoSubTok cc t) ∧ BufAll (NoSubTok cc) r.2 ∧ r.2.nextSub = none := by
  obtain ⟨tg, a, x, cs, tl⟩ := e
  simp only [itertext, List.all_append, Bool.and_eq_true] at he
  simp only [extractElem, hg.truthy, if_true] at h
  split at h
  · cases h
  · next lines b3 hc =>
    cases h
    have h0 := extractChildren_blank cc rp cs path _ (by
      refine (appendText_noSub ?_ x (.inr he.1)).1
      split <;> exact hb) he.2 _ hc
    have h1 := appendText_noSub (b := b3.resetNextSub) h0.2 tl (.inl rfl)
    exact ⟨h0.1, h1.1, h1.2 rfl⟩

theorem extractChildren_insideSub (cc : CharClass) (rp : List Str) (es : List Elem) (path : List Str) (b : Buf)
    (hb : BufAll (NoSubTok cc) b) (hn : b.nextSub = none) (hg : GoodTag b.nextTag) (he : LeafSpace cc es)
    (r : List (List Tok) × Buf) (h : extractChildren cc rp es path b = .ok r) :
    (∀ l ∈ r.1, ∀ t ∈ l, NoSubTok cc t) ∧ BufAll (NoSubTok cc) r.2 ∧ r.2.nextSub = none := by
  induction es generalizing b r with
  | nil => simp only [extractChildren] at h; cases h; exact ⟨by simp, hb, hn⟩
  | cons e es ih =>
    obtain ⟨tag, attrib, text, children, tail⟩ := e
    simp only [extractChildren] at h
    split at h
    · cases h
    · split at h
      · cases h
      · next lines1 b2 h1 =>
        split at h
        · cases h
        · next lines2 b3 h2 =>
          cases h
          have hnt : (if tag = lbTag then b.flush.2 else b).nextTag = b.nextTag := by split <;> rfl
          have a1 := extractElem_insideSub cc rp (.mk tag attrib text children tail) _ _ (by
            split
            · exact (bufAll_flush hb).2
            · exact hb) (by rw [hnt]; exact hg) (he _ (by simp)) _ h1
          have hg2 : GoodTag b2.nextTag := by
            have := (extractElem_inside cc rp _ _ _ _ h1 (by rw [hnt]; exact hg)).2
            simp only at this
            rw [this, hnt]; exact hg.after _
          have a2 := ih _ a1.2.1 a1.2.2 hg2 (fun e he' => he e (by simp [he'])) _ h2
          refine ⟨?_, a2.2⟩
          intro l hl
          rw [List.mem_append, List.mem_append] at hl
          rcases hl with (hl | hl) | hl
          · split at hl
            · rw [List.mem_singleton] at hl
              subst hl
              exact (bufAll_flush hb).1
            · simp at hl
          · exact a1.1 l hl
          · exact a2.1 l hl

mutual
/-- The outermost tagged elements have text only directly. -/
def flatElem (cc : CharClass) (rp : List Str) (path : List Str) : Elem → Prop
  | .mk _ _ x cs _ =>
    if path ≠ [] ∧ isTagged cc rp path x cs = true then LeafSpace cc cs else flatList cc rp path cs
def flatList (cc : CharClass) (rp : List Str) (path : List Str) : List Elem → Prop
  | [] => True
  | .mk t a x cs tl :: es => flatElem cc rp (path ++ [component t a]) (.mk t a x cs tl) ∧ flatList cc rp path es
end

mutual
theorem extractElem_flat (cc : CharClass) (rp : List Str) (e : Elem) (path : List Str) (b : Buf)
    (hb : BufAll (NoSubTok cc) b) (hn : b.nextTag = none) (hs : b.nextSub = none) (hp : ∀ c ∈ path, c ≠ [])
    (hnames : allBelow namedTag e) (hf : flatElem cc rp path e)
    (r : List (List Tok) × Buf) (h : extractElem cc rp e path b = .ok r) :
    (∀ l ∈ r.1, ∀ t ∈ l, NoSubTok cc t) ∧ BufAll (NoSubTok cc) r.2 ∧ r.2.nextSub = none := by
  match e with
  | .mk tg a x cs tl =>
    have ht0 : truthy none = false := rfl
    simp only [extractElem] at h
    split at h
    · cases h
    · next lines b3 hc =>
      cases h
      rw [hn] at hc ⊢
      simp only [ht0, Bool.false_eq_true, if_false] at hc ⊢
      rw [flatElem] at hf
      have key : (∀ l ∈ lines, ∀ t ∈ l, NoSubTok cc t) ∧ BufAll (NoSubTok cc) b3 ∧ b3.nextSub = none := by
        by_cases htag : path ≠ [] ∧ isTagged cc rp path x cs = true
        · rw [if_pos htag] at hf
          rw [isTagged_eq cc rp path x cs htag.1, htag.2, if_pos rfl] at hc
          have hpt : pathTag path = some (joinWith c!"/" path) := by
            unfold pathTag
            cases path with
            | nil => exact absurd rfl htag.1
            | cons => rfl
          have hne := joinWith_ne_nil (sep := c!"/") htag.1 hp
          have hgood : GoodTag (b.setNextTag (pathTag path)).nextTag := by
            refine ⟨joinWith c!"/" path, hne, .inl ?_⟩
            rw [hpt]
            unfold Buf.setNextTag addTagPrefix
            have : truthy (some (joinWith c!"/" path)) = true := by
              cases hj : joinWith c!"/" path with
              | nil => exact absurd hj hne
              | cons => rfl
            simp only [this, Bool.and_true]
            rfl
          have h1 := appendText_noSub (b := b.setNextTag (pathTag path)) hb x (.inl hs)
          have h2 := (appendText_view cc (b.setNextTag (pathTag path)) x).2
          exact extractChildren_insideSub cc rp cs path _ h1.1 (h1.2 hs) (by rw [h2]; exact hgood.after _) hf _ hc
        · rw [if_neg htag] at hf
          generalize hb1 : (if (hasDirectText cc x cs || _) = true then b.setNextTag (pathTag path) else b) = b1 at hc
          have hb1' : b1.nextTag = none ∧ b1.nextSub = none ∧ BufAll (NoSubTok cc) b1 := by
            rw [← hb1]
            by_cases hp0 : path = []
            · subst hp0
              split
              · exact ⟨rfl, hs, hb⟩
              · exact ⟨hn, hs, hb⟩
            · rw [isTagged_eq cc rp path x cs hp0]
              have : isTagged cc rp path x cs = false := by
                rw [Bool.eq_false_iff]; exact fun hh => htag ⟨hp0, hh⟩
              rw [this]
              exact ⟨hn, hs, hb⟩
          have h1 := appendText_noSub hb1'.2.2 x (.inl hb1'.2.1)
          have h2 := (appendText_view cc b1 x).2
          rw [hb1'.1, after_none] at h2
          exact extractChildren_flat cc rp cs path _ h1.1 h2 (h1.2 hb1'.2.1) hp hnames hf _ hc
      have h1 := appendText_noSub (b := b3.resetNextTag) key.2.1 tl (.inl key.2.2)
      exact ⟨key.1, h1.1, h1.2 key.2.2⟩
theorem extractChildren_flat (cc : CharClass) (rp : List Str) (es : List Elem) (path : List Str) (b : Buf)
    (hb : BufAll (NoSubTok cc) b) (hn : b.nextTag = none) (hs : b.nextSub = none) (hp : ∀ c ∈ path, c ≠ [])
    (hnames : allBelowList namedTag es) (hf : flatList cc rp path es)
    (r : List (List Tok) × Buf) (h : extractChildren cc rp es path b = .ok r) :
    (∀ l ∈ r.1, ∀ t ∈ l, NoSubTok cc t) ∧ BufAll (NoSubTok cc) r.2 ∧ r.2.nextSub = none := by
  match es with
  | [] => simp only [extractChildren] at h; cases h; exact ⟨by simp, hb, hs⟩
  | .mk tag attrib text children tail :: es =>
    simp only [allBelowList] at hnames
    rw [flatList] at hf
    simp only [extractChildren] at h
    split at h
    · cases h
    · next expr hexpr =>
      split at h
      · cases h
      · next lines1 b2 h1 =>
        split at h
        · cases h
        · next lines2 b3 h2 =>
          cases h
          have hnt : (if tag = lbTag then b.flush.2 else b).nextTag = none := by split <;> exact hn
          have hns : (if tag = lbTag then b.flush.2 else b).nextSub = none := by split <;> exact hs
          have hcomp : expr = component tag attrib := nodeToTagExpression_eq hexpr
          subst hcomp
          have hp' : ∀ c ∈ path ++ [component tag attrib], c ≠ [] := by
            intro c hc
            rcases List.mem_append.1 hc with hc | hc
            · exact hp c hc
            · rw [List.mem_singleton.1 hc]; exact component_ne_nil hnames.1
          have a1 := extractElem_flat cc rp (.mk tag attrib text children tail) _ _ (by
            split
            · exact (bufAll_flush hb).2
            · exact hb) hnt hns hp' hnames.2.1 hf.1 _ h1
          have a0 := (extractElem_outside cc rp (.mk tag attrib text children tail) _ _ _ h1 hnt hp' hnames.2.1).2
          have a2 := extractChildren_flat cc rp es path _ a1.2.1 a0 a1.2.2 hp hnames.2.2 hf.2 _ h2
          refine ⟨?_, a2.2⟩
          intro l hl
          rw [List.mem_append, List.mem_append] at hl
          rcases hl with (hl | hl) | hl
          · split at hl
            · rw [List.mem_singleton] at hl
              subst hl
              exact (bufAll_flush hb).1
            · simp at hl
          · exact a1.1 l hl
          · exact a2.1 l hl
end

/-- From one container. -/
theorem extractContainers_flat (cc : CharClass) (rp : List Str) (e : Elem) (hnames : allBelow namedTag e)
    (hf : flatElem cc rp [] e) (lines : List (List Tok)) (h : extractContainers cc rp [e] = .ok lines) :
    ∀ t ∈ lines.flatten, NoSubTok cc t := by
  unfold extractContainers at h
  simp only [extractContainersFrom] at h
  split at h
  · cases h
  · next ls b1 h1 =>
    cases h
    have := extractElem_flat cc rp e [] Buf.empty (by intro t ht; cases ht) rfl rfl (by simp) hnames hf _ h1
    intro t ht
    obtain ⟨l, hl, ht⟩ := List.mem_flatten.1 ht
    rw [List.append_nil, List.mem_append] at hl
    rcases hl with hl | hl
    · exact this.1 l hl t ht
    · split at hl
      · cases hl
      · rw [List.mem_singleton.1 hl] at ht
        exact (bufAll_flush this.2.1).1 t ht

theorem itertext_space_of_items (cc : CharClass) (addr : List Nat) (chain : List (Str × Dict Str)) (e : Elem)
    (h : ∀ it ∈ itemsElem addr chain e, ∀ c, it.ch = some c → cc.isSpace c = true) :
    (itertext e).all cc.isSpace = true := by
  have := itemsElem_text addr chain e
  rw [← this, List.all_eq_true]
  intro c hc
  unfold itemsText at hc
  obtain ⟨it, hit, hcc⟩ := List.mem_filterMap.1 hc
  exact h it hit c hcc

theorem itemsList_mem (addr : List Nat) (chain : List (Str × Dict Str)) (n : Nat) (es : List Elem) (e : Elem) (he : e ∈ es) :
    ∃ k ch, ∀ it ∈ itemsElem (addr ++ [k]) ch e, it ∈ itemsList addr chain n es := by
  induction es generalizing n with
  | nil => cases he
  | cons e' es ih =>
    obtain ⟨t, a, x, cs, tl⟩ := e'
    rcases List.mem_cons.1 he with rfl | he
    · refine ⟨n, chain ++ [(t, a)], ?_⟩
      intro it hit
      simp only [itemsList, List.mem_append]
      exact .inl (.inl (.inr hit))
    · obtain ⟨k, ch, h⟩ := ih (n + 1) he
      refine ⟨k, ch, ?_⟩
      intro it hit
      simp only [itemsList, List.mem_append]
      exact .inr (h it hit)

/-- The text of a block lies directly in its element. -/
def DirectBlock (cc : CharClass) (b : TagBlock) : Prop :=
  ∀ i, b.1 = some i → ∀ it ∈ b.2, ∀ c, it.ch = some c → cc.isSpace c = false → it.addr = i.1

mutual
theorem flatElem_of_blocks (cc : CharClass) (rp : List Str) (addr : List Nat) (chain : List (Str × Dict Str)) (e : Elem)
    (h : ∀ b ∈ tagBlocks cc rp addr chain e, DirectBlock cc b) : flatElem cc rp (chainPath chain) e := by
  match e with
  | .mk t a x cs tl =>
    rw [flatElem]
    rw [tagBlocks] at h
    split
    · next hc =>
      rw [if_pos hc] at h
      have h := h _ (List.mem_singleton.2 rfl) _ rfl
      intro e he
      obtain ⟨k, ch, hk⟩ := itemsList_mem addr chain 0 cs e he
      apply itertext_space_of_items cc (addr ++ [k]) ch
      intro it hit c hch
      rw [← Bool.not_eq_false]
      intro hsp
      have h1 := h it (by simp only [itemsElem, List.mem_append]; exact .inr (hk it hit)) c hch hsp
      obtain ⟨r, s, h2, _⟩ := itemsElem_below _ _ _ it hit
      rw [h1, List.append_assoc] at h2
      exact ne_of_longer h2.symm
    · next hc =>
      rw [if_neg hc] at h
      exact flatList_of_blocks cc rp addr chain 0 cs (fun b hb => h b (List.mem_cons_of_mem _ hb))
theorem flatList_of_blocks (cc : CharClass) (rp : List Str) (addr : List Nat) (chain : List (Str × Dict Str)) (n : Nat)
    (es : List Elem) (h : ∀ b ∈ tagBlocksList cc rp addr chain n es, DirectBlock cc b) :
    flatList cc rp (chainPath chain) es := by
  match es with
  | [] => trivial
  | .mk t a x cs tl :: es =>
    rw [flatList]
    rw [tagBlocksList] at h
    have hpath : chainPath (chain ++ [(t, a)]) = chainPath chain ++ [component t a] := by simp [chainPath]
    refine ⟨?_, flatList_of_blocks cc rp addr chain (n + 1) es (fun b hb => h b (List.mem_append_right _ hb))⟩
    rw [← hpath]
    exact flatElem_of_blocks cc rp (addr ++ [n]) (chain ++ [(t, a)]) (.mk t a x cs tl) (fun b hb =>
      h b (List.mem_append_left _ (List.mem_append_left _ (List.mem_append_right _ hb))))
end

end Verif
