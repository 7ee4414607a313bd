/-
Lemmas about the sub tags of a loaded document.
-/
import Verif.Spec.LoadSub
import Verif.Lemmas.TeiLoad

namespace Verif
open Spec

/-- Text and sub tag of a token. -/
def subView (t : Tok) : Str × Option Str := (t.text, t.attrib.get? subTagAttribName)

theorem subView_toTextToken (cc : CharClass) (s : Str) (a b : Option Str) :
    subView (toTextToken cc s a b) = (s, b) := by
  unfold subView toTextToken
  rcases a with _ | a <;> rcases b with _ | b <;> simp [Dict.set, Dict.get?, tagAttribName, subTagAttribName]

theorem appendToken_subView (cc : CharClass) (b : Buf) (s : Str) :
    (b.appendToken cc s).tokens.map subView = b.tokens.map subView ++ [(s, b.nextSub)] ∧
    (b.appendToken cc s).nextSub = toInside b.nextSub := by
  refine ⟨?_, rfl⟩
  unfold Buf.appendToken Buf.tokens
  cases h : b.rev with
  | nil => simp [subView_toTextToken]
  | cons t ts => simp [subView_toTextToken]; rfl

theorem appendTokens_subView (cc : CharClass) (ss : List Str) (b : Buf) :
    (b.appendTokens cc ss).tokens.map subView = b.tokens.map subView ++ mark b.nextSub ss ∧
    (b.appendTokens cc ss).nextSub = after b.nextSub ss := by
  unfold Buf.appendTokens
  induction ss generalizing b with
  | nil => simp [mark, after]
  | cons s ss ih =>
    obtain ⟨h1, h2⟩ := ih (b.appendToken cc s)
    obtain ⟨h3, h4⟩ := appendToken_subView cc b s
    rw [List.foldl_cons, h1, h2, h3, h4]
    have := mark_append b.nextSub [s] ss
    have h5 := after_append b.nextSub [s] ss
    simp only [List.singleton_append] at this h5
    rw [this, h5]
    simp [mark, after]

theorem appendText_subView (cc : CharClass) (b : Buf) (x : Option Str) :
    (b.appendText cc x).tokens.map subView =
      b.tokens.map subView ++ mark b.nextSub (nodeToks cc [orEmpty x]) ∧
    (b.appendText cc x).nextSub = after b.nextSub (nodeToks cc [orEmpty x]) := by
  cases x with
  | none => simp [Buf.appendText, nodeToks, orEmpty, Spec.cutAt, mark, after]
  | some s =>
    simp only [Buf.appendText]
    split
    · next h =>
      have : s = [] := by simpa using h
      subst this
      simp [nodeToks, orEmpty, Spec.cutAt, mark, after]
    · have := appendTokens_subView cc (tokenizeText cc s) b
      rw [tokenizeText_eq_cutAt] at this
      simpa [nodeToks, orEmpty, tokenizeText_eq_cutAt] using this

/-- The tokens for events, starting with the pending sub tag `nt`. -/
def evMark (cc : CharClass) (nt : Option Str) : List SubEvent → List (Str × Option Str)
  | [] => []
  | .opens p :: r => evMark cc (some (bPrefix ++ p)) r
  | .closes :: r => evMark cc none r
  | .text s :: r => mark nt (nodeToks cc [s]) ++ evMark cc (after nt (nodeToks cc [s])) r

/-- The pending sub tag after events. -/
def evAfter (cc : CharClass) (nt : Option Str) : List SubEvent → Option Str
  | [] => nt
  | .opens p :: r => evAfter cc (some (bPrefix ++ p)) r
  | .closes :: r => evAfter cc none r
  | .text s :: r => evAfter cc (after nt (nodeToks cc [s])) r

theorem evMark_append (cc : CharClass) (nt : Option Str) (a b : List SubEvent) :
    evMark cc nt (a ++ b) = evMark cc nt a ++ evMark cc (evAfter cc nt a) b := by
  induction a generalizing nt with
  | nil => rfl
  | cons e a ih => cases e <;> simp [evMark, evAfter, ih]

theorem evAfter_append (cc : CharClass) (nt : Option Str) (a b : List SubEvent) :
    evAfter cc nt (a ++ b) = evAfter cc (evAfter cc nt a) b := by
  induction a generalizing nt with
  | nil => rfl
  | cons e a ih => cases e <;> simp [evAfter, ih]

/-- Texts and sub tags of all tokens produced so far. -/
def outSub (ls : List (List Tok)) (b : Buf) : List (Str × Option Str) :=
  (ls.flatten ++ b.tokens).map subView

/-- Flushing before an element. -/
theorem outSub_flush (tag : Str) (b : Buf) (ls1 ls2 : List (List Tok)) (b2 b3 : Buf) (out1 out2 : List (Str × Option Str))
    (h1 : outSub ls1 b2 = (if tag = lbTag then b.flush.2 else b).tokens.map subView ++ out1)
    (h2 : outSub ls2 b3 = b2.tokens.map subView ++ out2) :
    outSub ((if tag = lbTag then [b.flush.1] else []) ++ ls1 ++ ls2) b3 = b.tokens.map subView ++ (out1 ++ out2) := by
  have k1 : outSub ((if tag = lbTag then [b.flush.1] else []) ++ ls1 ++ ls2) b3 =
      ((if tag = lbTag then [b.flush.1] else []).flatten ++ ls1.flatten).map subView ++ outSub ls2 b3 := by
    simp [outSub]
  have k2 : (if tag = lbTag then [b.flush.1] else []).flatten.map subView ++
      (if tag = lbTag then b.flush.2 else b).tokens.map subView = b.tokens.map subView := by
    split <;> simp [Buf.flush, Buf.tokens]
  rw [k1, h2, ← k2]
  simp only [outSub, List.map_append] at h1 ⊢
  simp only [List.append_assoc] at h1 ⊢
  rw [← List.append_assoc (ls1.flatten.map subView), h1]
  simp only [List.append_assoc]

theorem setNextSub_path (b : Buf) (path : List Str) (hne : path ≠ []) (hp : ∀ c ∈ path, c ≠ []) :
    (b.setNextSub (pathTag path)).nextSub = some (bPrefix ++ joinWith c!"/" path) := by
  have : pathTag path = some (joinWith c!"/" path) := by
    cases path with
    | nil => exact absurd rfl hne
    | cons c p => rfl
  simp only [Buf.setNextSub, this]
  exact addTagPrefix_of_truthy (joinWith_ne_nil hne hp) (by decide)

theorem names_snoc {path : List Str} {t : Str} {a : Dict Str} (hp : ∀ c ∈ path, c ≠ []) (ht : namedTag t a) :
    ∀ c ∈ path ++ [component t a], c ≠ [] := by
  intro c hc
  rcases List.mem_append.1 hc with hc | hc
  · exact hp c hc
  · rw [List.mem_singleton.1 hc]; exact component_ne_nil ht

mutual
theorem extractElem_insideEvents (cc : CharClass) (rp : List Str) (e : Elem) (path : List Str) (b : Buf)
    (r : List (List Tok) × Buf) (h : extractElem cc rp e path b = .ok r) (hg : GoodTag b.nextTag)
    (hne : path ≠ []) (hp : ∀ c ∈ path, c ≠ []) (hnames : Spec.allBelow namedTag e) :
    outSub r.1 r.2 = b.tokens.map subView ++ evMark cc b.nextSub (subEvents cc rp path e ++ [.text (orEmpty e.tail)]) ∧
    r.2.nextSub = evAfter cc b.nextSub (subEvents cc rp path e ++ [.text (orEmpty e.tail)]) := by
  match e with
  | .mk tg a x cs tl =>
    simp only [extractElem, hg.truthy, if_true] at h
    split at h
    · cases h
    · next lines b3 hc =>
      cases h
      rw [isTagged_eq cc rp path x cs hne] at hc
      generalize hb1 : (if Spec.isTagged cc rp path x cs = true then b.setNextSub (pathTag path) else b) = b1 at hc
      have hb1' : b1.tokens = b.tokens ∧ b1.nextTag = b.nextTag ∧ b1.nextSub = evAfter cc b.nextSub
          (if isTagged cc rp path x cs then [.opens (joinWith c!"/" path)] else []) := by
        rw [← hb1]
        refine ⟨by split <;> rfl, by split <;> rfl, ?_⟩
        split
        · exact setNextSub_path b path hne hp
        · rfl
      obtain ⟨t1, t2⟩ := appendText_subView cc b1 x
      obtain ⟨t3, t4⟩ := appendText_view cc b1 x
      rw [hb1'.2.1] at t4
      obtain ⟨c1, c2⟩ := extractChildren_insideEvents cc rp cs path _ _ hc (by rw [t4]; exact hg.after _) hp hnames
      obtain ⟨a1, a2⟩ := appendText_subView cc b3.resetNextSub tl
      have e1 : b3.resetNextSub.nextSub = none := rfl
      have e2 : b3.resetNextSub.tokens = b3.tokens := rfl
      simp only at c1 c2
      rw [e1] at a1 a2
      rw [e2] at a1
      have hopen : ∀ nt, evMark cc nt (if isTagged cc rp path x cs then [.opens (joinWith c!"/" path)] else []) = [] := by
        intro nt
        split <;> rfl
      simp only [subEvents, Elem.tail, List.append_assoc, List.cons_append, evMark_append, evAfter_append, hopen, evMark,
        evAfter, List.nil_append, List.append_nil]
      rw [← hb1'.2.2]
      refine ⟨?_, ?_⟩
      · have : outSub lines (b3.resetNextSub.appendText cc tl) =
            outSub lines b3 ++ mark none (nodeToks cc [orEmpty tl]) := by
          simp only [outSub, List.map_append, a1, List.append_assoc]
        rw [this, c1, t1, t2, hb1'.1]
        simp only [List.append_assoc]
      · exact a2
theorem extractChildren_insideEvents (cc : CharClass) (rp : List Str) (es : List Elem) (path : List Str)
    (b : Buf) (r : List (List Tok) × Buf) (h : extractChildren cc rp es path b = .ok r)
    (hg : GoodTag b.nextTag) (hp : ∀ c ∈ path, c ≠ []) (hnames : Spec.allBelowList namedTag es) :
    outSub r.1 r.2 = b.tokens.map subView ++ evMark cc b.nextSub (subEventsList cc rp path es) ∧
    r.2.nextSub = evAfter cc b.nextSub (subEventsList cc rp path es) := by
  match es with
  | [] =>
    simp only [extractChildren] at h; cases h
    simp [Spec.subEventsList, evMark, evAfter, outSub]
  | .mk tag attrib text children tail :: es =>
    simp only [extractChildren] at h
    split at h
    · cases h
    · next s hs =>
      split at h
      · cases h
      · next lines1 b2 h1 =>
        split at h
        · cases h
        · next lines2 b3 h2 =>
          cases h
          rw [Spec.allBelowList] at hnames
          obtain ⟨hn1, hn2, hn3⟩ := hnames
          have hs' := nodeToTagExpression_eq hs
          subst hs'
          have hn : (if tag = lbTag then b.flush.2 else b).nextTag = b.nextTag := by split <;> rfl
          have hn' : (if tag = lbTag then b.flush.2 else b).nextSub = b.nextSub := by split <;> rfl
          have hgood : GoodTag (if tag = lbTag then b.flush.2 else b).nextTag := by rw [hn]; exact hg
          obtain ⟨i1, i2⟩ := extractElem_insideEvents cc rp _ _ _ _ h1 hgood (by simp) (names_snoc hp hn1) hn2
          obtain ⟨-, m2⟩ := extractElem_inside cc rp _ _ _ _ h1 hgood
          have hg2 : GoodTag b2.nextTag := by
            have := m2; simp only at this; rw [this, hn]; exact hg.after _
          obtain ⟨j1, j2⟩ := extractChildren_insideEvents cc rp es path _ _ h2 hg2 hp hn3
          rw [hn'] at i1 i2
          simp only at i1 i2 j1 j2
          have ht : (Elem.mk tag attrib text children tail).tail = tail := rfl
          rw [ht] at i1 i2
          have hev : subEventsList cc rp path (.mk tag attrib text children tail :: es) =
              (subEvents cc rp (path ++ [component tag attrib]) (.mk tag attrib text children tail) ++ [.text (orEmpty tail)]) ++
                subEventsList cc rp path es := by
            simp only [subEventsList, List.append_assoc, List.singleton_append]
          generalize subEvents cc rp (path ++ [component tag attrib]) (.mk tag attrib text children tail) ++
            [.text (orEmpty tail)] = evs at i1 i2 hev
          rw [hev, evMark_append, evAfter_append, ← i2]
          exact ⟨outSub_flush tag b _ _ _ _ _ _ i1 j1, j2⟩
end

theorem evAfter_noSub (cc : CharClass) (s : Str) (r : List SubEvent) : evAfter cc none (.text s :: r) = evAfter cc none r := by
  rw [evAfter, after_none]

theorem evAfter_nested (cc : CharClass) (rp : List Str) (path : List Str) (e : Elem) (nt : Option Str) :
    evAfter cc nt (subEvents cc rp path e) = none := by
  cases e
  rw [subEvents, evAfter_append]
  rfl

theorem evAfter_nestedList (cc : CharClass) (rp : List Str) (path : List Str) (es : List Elem) (nt : Option Str)
    (h : es ≠ [] ∨ nt = none) : evAfter cc nt (subEventsList cc rp path es) = none := by
  induction es generalizing nt with
  | nil => rcases h with h | h
           · exact absurd rfl h
           · exact h
  | cons e es ih =>
    cases e
    rw [subEventsList, evAfter_append, evAfter_nested, evAfter_noSub]
    exact ih none (.inr rfl)

mutual
theorem extractElem_docEvents (cc : CharClass) (rp : List Str) (e : Elem) (path : List Str) (b : Buf)
    (r : List (List Tok) × Buf) (h : extractElem cc rp e path b = .ok r) (hn : b.nextTag = none) (hs : b.nextSub = none)
    (hp : ∀ c ∈ path, c ≠ []) (hnames : Spec.allBelow namedTag e) :
    outSub r.1 r.2 = b.tokens.map subView ++ evMark cc none (docEvents cc rp path e ++ [.text (orEmpty e.tail)]) ∧
    r.2.nextTag = none ∧ r.2.nextSub = none ∧ evAfter cc none (docEvents cc rp path e ++ [.text (orEmpty e.tail)]) = none := by
  match e with
  | .mk tg a x cs tl =>
    have hr := (extractElem_outside cc rp _ path b r h hn hp hnames).2
    refine and_left_comm.1 ⟨hr, ?_⟩
    simp only [extractElem] at h
    split at h
    · cases h
    · next lines b3 hc =>
      cases h
      rw [hn] at hc ⊢
      have ht0 : truthy none = false := rfl
      simp only [ht0, Bool.false_eq_true, if_false] at hc ⊢
      obtain ⟨a1, a2⟩ := appendText_subView cc b3.resetNextTag tl
      have e1 : b3.resetNextTag.nextSub = b3.nextSub := rfl
      have e2 : b3.resetNextTag.tokens = b3.tokens := rfl
      rw [e1] at a1 a2
      rw [e2] at a1
      have hout : outSub lines (b3.resetNextTag.appendText cc tl) =
            outSub lines b3 ++ mark b3.nextSub (nodeToks cc [orEmpty tl]) := by
        simp only [outSub, List.map_append, a1, List.append_assoc]
      -- the content of the element
      have hmain : outSub lines b3 = b.tokens.map subView ++ evMark cc none (docEvents cc rp path (.mk tg a x cs tl)) ∧
          b3.nextSub = none ∧ evAfter cc none (docEvents cc rp path (.mk tg a x cs tl)) = none := by
        by_cases hq : path ≠ [] ∧ Spec.isTagged cc rp path x cs = true
        · rw [isTagged_eq cc rp path x cs hq.1, if_pos hq.2] at hc
          have hj : joinWith c!"/" path ≠ [] := joinWith_ne_nil hq.1 hp
          have hb1 : (b.setNextTag (pathTag path)).nextTag = some (bPrefix ++ joinWith c!"/" path) := by
            have : pathTag path = some (joinWith c!"/" path) := by
              cases path with
              | nil => exact absurd rfl hq.1
              | cons c p => rfl
            simp only [Buf.setNextTag, this]
            exact addTagPrefix_of_truthy hj (by decide)
          obtain ⟨t1, t2⟩ := appendText_subView cc (b.setNextTag (pathTag path)) x
          obtain ⟨-, t4⟩ := appendText_view cc (b.setNextTag (pathTag path)) x
          have hs' : (b.setNextTag (pathTag path)).nextSub = none := hs
          rw [hs'] at t1 t2
          rw [after_none] at t2
          rw [hb1] at t4
          have hg : GoodTag (some (bPrefix ++ joinWith c!"/" path)) := ⟨_, hj, .inl rfl⟩
          obtain ⟨c1, c2⟩ := extractChildren_insideEvents cc rp cs path _ _ hc (by rw [t4]; exact hg.after _) hp hnames
          simp only at c1 c2
          rw [t2] at c1 c2
          rw [docEvents, if_pos hq, evMark, evAfter_noSub, after_none]
          refine ⟨?_, c2.trans (evAfter_nestedList _ _ _ _ _ (.inr rfl)), evAfter_nestedList _ _ _ _ _ (.inr rfl)⟩
          rw [c1, t1]
          have : (b.setNextTag (pathTag path)).tokens = b.tokens := rfl
          rw [this, List.append_assoc]
        · have hc' : extractChildren cc rp cs path (b.appendText cc x) = .ok (lines, b3) := by
            by_cases hpath : path = []
            · subst hpath
              rw [← hc]
              congr 2
              split
              · have : b.setNextTag (pathTag []) = b := by
                  cases b; simp only at hn; subst hn; rfl
                simp [this]
              · rfl
            · rw [isTagged_eq cc rp path x cs hpath] at hc
              have : ¬ Spec.isTagged cc rp path x cs = true := fun hh => hq ⟨hpath, hh⟩
              rw [if_neg this] at hc
              exact hc
          obtain ⟨t1, t2⟩ := appendText_subView cc b x
          obtain ⟨-, t4⟩ := appendText_view cc b x
          rw [hs] at t1 t2
          rw [after_none] at t2
          rw [hn, after_none] at t4
          obtain ⟨c1, -, c2, c3⟩ := extractChildren_docEvents cc rp cs path _ _ hc' t4 t2 hp hnames
          rw [docEvents, if_neg hq, evMark, evAfter_noSub, after_none]
          refine ⟨?_, c2, c3⟩
          simp only at c1
          rw [c1, t1, List.append_assoc]
      obtain ⟨m1, m2, m3⟩ := hmain
      have ht : (Elem.mk tg a x cs tl).tail = tl := rfl
      rw [ht, evMark_append, evAfter_append, m3]
      refine ⟨?_, ?_, by rw [evAfter_noSub]; rfl⟩
      · rw [hout, m1, m2, List.append_assoc]
        simp only [evMark, List.append_nil]
      · show (b3.resetNextTag.appendText cc tl).nextSub = none
        rw [a2, m2, after_none]
theorem extractChildren_docEvents (cc : CharClass) (rp : List Str) (es : List Elem) (path : List Str)
    (b : Buf) (r : List (List Tok) × Buf) (h : extractChildren cc rp es path b = .ok r)
    (hn : b.nextTag = none) (hs : b.nextSub = none) (hp : ∀ c ∈ path, c ≠ []) (hnames : Spec.allBelowList namedTag es) :
    outSub r.1 r.2 = b.tokens.map subView ++ evMark cc none (docEventsList cc rp path es) ∧
    r.2.nextTag = none ∧ r.2.nextSub = none ∧ evAfter cc none (docEventsList cc rp path es) = none := by
  match es with
  | [] =>
    simp only [extractChildren] at h; cases h
    exact ⟨by simp [Spec.docEventsList, outSub, evMark], hn, hs, rfl⟩
  | .mk tag attrib text children tail :: es =>
    simp only [extractChildren] at h
    split at h
    · cases h
    · next s hsx =>
      split at h
      · cases h
      · next lines1 b2 h1 =>
        split at h
        · cases h
        · next lines2 b3 h2 =>
          cases h
          rw [Spec.allBelowList] at hnames
          obtain ⟨hn1, hn2, hn3⟩ := hnames
          have hb : (if tag = lbTag then b.flush.2 else b).nextTag = none := by
            rw [← hn]; split <;> rfl
          have hb' : (if tag = lbTag then b.flush.2 else b).nextSub = none := by
            rw [← hs]; split <;> rfl
          have hs' := nodeToTagExpression_eq hsx
          subst hs'
          obtain ⟨i1, i2, i3, i4⟩ := extractElem_docEvents cc rp _ _ _ _ h1 hb hb' (names_snoc hp hn1) hn2
          obtain ⟨j1, j2, j3, j4⟩ := extractChildren_docEvents cc rp es path _ _ h2 i2 i3 hp hn3
          have hev : docEventsList cc rp path (.mk tag attrib text children tail :: es) =
              (docEvents cc rp (path ++ [component tag attrib]) (.mk tag attrib text children tail) ++ [.text (orEmpty tail)]) ++
                docEventsList cc rp path es := by
            simp only [docEventsList, List.append_assoc, List.singleton_append]
          have ht : (Elem.mk tag attrib text children tail).tail = tail := rfl
          rw [ht] at i1 i4
          generalize docEvents cc rp (path ++ [component tag attrib]) (.mk tag attrib text children tail) ++
            [.text (orEmpty tail)] = evs at i1 i4 hev
          rw [hev, evMark_append, evAfter_append, i4]
          exact ⟨outSub_flush tag b _ _ _ _ _ _ i1 j1, j2, j3, j4⟩
end

/-- The sub tags of the tokens of the containers. -/
theorem extractContainersFrom_events (cc : CharClass) (rp : List Str) (es : List Elem) (b : Buf)
    (ls : List (List Tok)) (h : extractContainersFrom cc rp es b = .ok ls) (hb : b.rev = [])
    (hn : b.nextTag = none) (hs : b.nextSub = none) (hnames : ∀ e ∈ es, Spec.allBelow namedTag e) :
    ls.flatten.map subView =
      evMark cc none (es.flatMap (fun e => docEvents cc rp [] e ++ [.text (orEmpty e.tail)])) := by
  induction es generalizing b ls with
  | nil => simp only [extractContainersFrom] at h; cases h; rfl
  | cons e es ih =>
    simp only [extractContainersFrom] at h
    split at h
    · cases h
    · next lines b1 h1 =>
      split at h
      · cases h
      · next rest h2 =>
        cases h
        obtain ⟨i1, i2, i3, i4⟩ := extractElem_docEvents cc rp e [] b _ h1 hn hs (by simp) (hnames e (by simp))
        simp only at i1 i2 i3
        have hr := ih _ _ h2 (by
          split
          · next hh => simpa using hh
          · rfl) (by rw [← i2]; split <;> rfl) (by rw [← i3]; split <;> rfl) (fun e he => hnames e (by simp [he]))
        have hb0 : b.tokens = [] := by simp [Buf.tokens, hb]
        rw [hb0, List.map_nil, List.nil_append] at i1
        rw [List.flatMap_cons, evMark_append, i4, ← hr, ← i1]
        simp only [outSub]
        cases hrev : b1.rev with
        | nil => simp [Buf.tokens, hrev]
        | cons t ts => simp [Buf.flush]

/-! ### Grouping -/

/-- Events opening only elements with a path. -/
def OpensNamed (evs : List SubEvent) : Prop := ∀ p, .opens p ∈ evs → p ≠ []

mutual
theorem subEvents_named (cc : CharClass) (rp : List Str) (path : List Str) (e : Elem) (hne : path ≠ [])
    (hp : ∀ c ∈ path, c ≠ []) (hnames : Spec.allBelow namedTag e) : OpensNamed (subEvents cc rp path e) := by
  match e with
  | .mk tg a x cs tl =>
    intro p h
    simp only [subEvents, List.mem_append, List.mem_cons, List.not_mem_nil, or_false] at h
    rcases h with (h | h | h) | h
    · split at h
      · rw [List.mem_singleton] at h
        cases h
        exact joinWith_ne_nil hne hp
      · cases h
    · cases h
    · exact subEventsList_named cc rp path cs hp hnames p h
    · cases h
theorem subEventsList_named (cc : CharClass) (rp : List Str) (path : List Str) (es : List Elem)
    (hp : ∀ c ∈ path, c ≠ []) (hnames : Spec.allBelowList namedTag es) : OpensNamed (subEventsList cc rp path es) := by
  match es with
  | [] => intro p h; cases h
  | .mk t a x cs tl :: es =>
    rw [Spec.allBelowList] at hnames
    intro p h
    simp only [subEventsList, List.mem_append, List.mem_cons] at h
    rcases h with h | h | h
    · exact subEvents_named cc rp _ _ (by simp) (names_snoc hp hnames.1) hnames.2.1 p h
    · cases h
    · exact subEventsList_named cc rp path es hp hnames.2.2 p h
end

mutual
theorem docEvents_named (cc : CharClass) (rp : List Str) (path : List Str) (e : Elem)
    (hp : ∀ c ∈ path, c ≠ []) (hnames : Spec.allBelow namedTag e) : OpensNamed (docEvents cc rp path e) := by
  match e with
  | .mk tg a x cs tl =>
    intro p h
    simp only [docEvents, List.mem_cons] at h
    rcases h with h | h
    · cases h
    · split at h
      · exact subEventsList_named cc rp path cs hp hnames p h
      · exact docEventsList_named cc rp path cs hp hnames p h
theorem docEventsList_named (cc : CharClass) (rp : List Str) (path : List Str) (es : List Elem)
    (hp : ∀ c ∈ path, c ≠ []) (hnames : Spec.allBelowList namedTag es) : OpensNamed (docEventsList cc rp path es) := by
  match es with
  | [] => intro p h; cases h
  | .mk t a x cs tl :: es =>
    rw [Spec.allBelowList] at hnames
    intro p h
    simp only [docEventsList, List.mem_append, List.mem_cons] at h
    rcases h with h | h | h
    · exact docEvents_named cc rp _ _ (names_snoc hp hnames.1) hnames.2.1 p h
    · cases h
    · exact docEventsList_named cc rp path es hp hnames.2.2 p h
end

/-- The pending tag at the start of a group. -/
def groupStart (sub : Option Str) : Option Str := sub.map (fun p => bPrefix ++ p)

theorem mark_group (cc : CharClass) (sub : Option Str) (hsub : ∀ p, sub = some p → p ≠ []) (texts : List Str) :
    segmentTokens cc (sub, texts) = mark (groupStart sub) (nodeToks cc texts) := by
  cases sub with
  | none => rw [groupStart, Option.map_none, mark_none]; rfl
  | some p => rw [groupStart, Option.map_some, mark_b p (hsub p rfl)]; rfl

theorem subGroups_tokens (cc : CharClass) (evs : List SubEvent) (hev : OpensNamed evs) (sub : Option Str)
    (hsub : ∀ p, sub = some p → p ≠ []) (texts : List Str) :
    (subGroups sub texts evs).flatMap (segmentTokens cc) =
      mark (groupStart sub) (nodeToks cc texts) ++ evMark cc (after (groupStart sub) (nodeToks cc texts)) evs := by
  induction evs generalizing sub texts with
  | nil => simp [subGroups, mark_group cc sub hsub, evMark]
  | cons e evs ih =>
    have hev' : OpensNamed evs := fun p hp => hev p (List.mem_cons_of_mem _ hp)
    cases e with
    | opens p =>
      rw [subGroups, List.flatMap_cons, mark_group cc sub hsub, ih hev' (some p) (by
        intro q hq; cases hq; exact hev p (by simp)) []]
      simp [nodeToks, mark, after, evMark, groupStart]
    | closes =>
      rw [subGroups, List.flatMap_cons, mark_group cc sub hsub, ih hev' none (by intro q hq; cases hq) []]
      simp [nodeToks, mark, after, evMark, groupStart]
    | text s =>
      rw [subGroups, ih hev' sub hsub, nodeToks_append, mark_append, after_append, evMark, List.append_assoc]

/-! ### Nested elements without elements in them -/

/-- The value of the sub tag of a pair. -/
def subVal (x : Str × Option Str) : Str × Option Str := (x.1, stripTagPrefix x.2)

/-- The tokens of text nodes with their sub tags. -/
def nodeSubs (cc : CharClass) (l : List (Option Str × Str)) : List (Str × Option Str) :=
  l.flatMap (fun x => (cutAt (tokenBoundary cc) x.2).map (fun t => (t, x.1)))

theorem mark_val (sub : Option Str) (hsub : ∀ p, sub = some p → p ≠ []) (l : List Str) :
    (mark (groupStart sub) l).map subVal = l.map (fun t => (t, sub)) := by
  cases sub with
  | none => rw [groupStart, Option.map_none, mark_none]; simp [subVal, stripTagPrefix]
  | some p =>
    cases l with
    | nil => rfl
    | cons t l =>
      simp only [groupStart, Option.map_some, mark, truthy_toInside p (hsub p rfl) (.inl rfl)]
      simp [subVal, stripTagPrefix_b, stripTagPrefix_i]

theorem evMark_text_none (cc : CharClass) (s : Str) (r : List SubEvent) :
    (evMark cc none (.text s :: r)).map subVal =
      (cutAt (tokenBoundary cc) s).map (fun t => (t, (none : Option Str))) ++ (evMark cc none r).map subVal := by
  rw [evMark, after_none, List.map_append]
  congr 1
  have := mark_val none (by simp) (nodeToks cc [s])
  simpa [groupStart, nodeSubs, nodeToks] using this

theorem nodeSubs_append (cc : CharClass) (a b : List (Option Str × Str)) :
    nodeSubs cc (a ++ b) = nodeSubs cc a ++ nodeSubs cc b := by simp [nodeSubs]

theorem nodeSubs_cons (cc : CharClass) (a : Option Str × Str) (b : List (Option Str × Str)) :
    nodeSubs cc (a :: b) = (cutAt (tokenBoundary cc) a.2).map (fun t => (t, a.1)) ++ nodeSubs cc b := by simp [nodeSubs]

mutual
theorem ownSubs_events (cc : CharClass) (rp : List Str) (path : List Str) (e : Elem) (hne : path ≠ [])
    (hp : ∀ c ∈ path, c ≠ []) (hnames : Spec.allBelow namedTag e) (hplain : plainSubs cc rp path e) :
    (evMark cc none (subEvents cc rp path e)).map subVal = nodeSubs cc (ownSubs cc rp path none e) := by
  match e with
  | .mk tg a x cs tl =>
    rw [plainSubs] at hplain
    simp only [subEvents, ownSubs]
    rcases Bool.eq_false_or_eq_true (isTagged cc rp path x cs) with h | h
    · have hcs := hplain.1 h
      subst hcs
      rw [if_pos h, if_pos h]
      simp only [subEventsList, ownSubsList, List.cons_append, List.nil_append, evMark, List.append_nil]
      have := mark_val (some (joinWith c!"/" path)) (by
        intro q hq; cases hq; exact joinWith_ne_nil hne hp) (nodeToks cc [orEmpty x])
      simpa [groupStart, nodeSubs, nodeToks] using this
    · rw [if_neg (by rw [h]; simp), if_neg (by rw [h]; simp)]
      rw [List.nil_append, List.cons_append, evMark_text_none, nodeSubs_cons]
      congr 1
      rw [evMark_append]
      simp only [evMark, List.append_nil]
      exact ownSubsList_events cc rp path cs hp hnames hplain.2
theorem ownSubsList_events (cc : CharClass) (rp : List Str) (path : List Str) (es : List Elem)
    (hp : ∀ c ∈ path, c ≠ []) (hnames : Spec.allBelowList namedTag es) (hplain : plainSubsList cc rp path es) :
    (evMark cc none (subEventsList cc rp path es)).map subVal = nodeSubs cc (ownSubsList cc rp path none es) := by
  match es with
  | [] => rfl
  | .mk t a x cs tl :: es =>
    rw [Spec.allBelowList] at hnames
    rw [plainSubsList] at hplain
    rw [subEventsList, ownSubsList, evMark_append, evAfter_nested, List.map_append, nodeSubs_append, evMark_text_none,
      nodeSubs_cons, ownSubs_events cc rp _ _ (by simp) (names_snoc hp hnames.1) hnames.2.1 hplain.1,
      ownSubsList_events cc rp path es hp hnames.2.2 hplain.2]
end

mutual
theorem evAfter_docEvents (cc : CharClass) (rp : List Str) (path : List Str) (e : Elem) :
    evAfter cc none (docEvents cc rp path e) = none := by
  match e with
  | .mk tg a x cs tl =>
    rw [docEvents, evAfter_noSub]
    split
    · exact evAfter_nestedList cc rp path cs none (.inr rfl)
    · exact evAfter_docEventsList cc rp path cs
theorem evAfter_docEventsList (cc : CharClass) (rp : List Str) (path : List Str) (es : List Elem) :
    evAfter cc none (docEventsList cc rp path es) = none := by
  match es with
  | [] => rfl
  | .mk t a x cs tl :: es =>
    rw [docEventsList, evAfter_append, evAfter_docEvents, evAfter_noSub]
    exact evAfter_docEventsList cc rp path es
end

mutual
theorem docSubs_events (cc : CharClass) (rp : List Str) (path : List Str) (e : Elem)
    (hp : ∀ c ∈ path, c ≠ []) (hnames : Spec.allBelow namedTag e) (hplain : docPlain cc rp path e) :
    (evMark cc none (docEvents cc rp path e)).map subVal = nodeSubs cc (docSubs cc rp path e) := by
  match e with
  | .mk tg a x cs tl =>
    rw [docPlain] at hplain
    rw [docEvents, docSubs, evMark_text_none, nodeSubs_cons]
    congr 1
    by_cases hq : path ≠ [] ∧ isTagged cc rp path x cs = true
    · rw [if_pos hq] at hplain ⊢
      rw [if_pos hq]
      exact ownSubsList_events cc rp path cs hp hnames hplain
    · rw [if_neg hq] at hplain ⊢
      rw [if_neg hq]
      exact docSubsList_events cc rp path cs hp hnames hplain
theorem docSubsList_events (cc : CharClass) (rp : List Str) (path : List Str) (es : List Elem)
    (hp : ∀ c ∈ path, c ≠ []) (hnames : Spec.allBelowList namedTag es) (hplain : docPlainList cc rp path es) :
    (evMark cc none (docEventsList cc rp path es)).map subVal = nodeSubs cc (docSubsList cc rp path es) := by
  match es with
  | [] => rfl
  | .mk t a x cs tl :: es =>
    rw [Spec.allBelowList] at hnames
    rw [docPlainList] at hplain
    rw [docEventsList, docSubsList, evMark_append, evAfter_docEvents, List.map_append, nodeSubs_append, evMark_text_none,
      nodeSubs_cons, docSubs_events cc rp _ _ (names_snoc hp hnames.1) hnames.2.1 hplain.1,
      docSubsList_events cc rp path es hp hnames.2.2 hplain.2]
end

end Verif
