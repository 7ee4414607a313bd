import Verif.Spec.Tei
import Verif.Lemmas.Tokenize
import Verif.Lemmas.Tags

namespace Verif

/-! ### Text of tokens and lines -/

/-- The text of a list of tokens. -/
def toksText (ts : List Tok) : Str := ts.flatMap (·.text)

@[simp] theorem toksText_nil : toksText [] = [] := rfl
@[simp] theorem toksText_append (a b : List Tok) : toksText (a ++ b) = toksText a ++ toksText b := by
  simp [toksText]
@[simp] theorem toksText_cons (t : Tok) (ts : List Tok) : toksText (t :: ts) = t.text ++ toksText ts := by
  simp [toksText]

/-- Stream of finished lines: their text, each followed by a break. -/
def linesFlow (ls : List (List Tok)) : List (Option Char) :=
  ls.flatMap (fun l => (toksText l).map some ++ [none])

@[simp] theorem linesFlow_nil : linesFlow [] = [] := rfl
@[simp] theorem linesFlow_append (a b : List (List Tok)) :
    linesFlow (a ++ b) = linesFlow a ++ linesFlow b := by simp [linesFlow]

def bufFlow (b : Buf) : List (Option Char) := (toksText b.tokens).map some

@[simp] theorem bufFlow_setNextTag (b : Buf) (t : Option Str) : bufFlow (b.setNextTag t) = bufFlow b := rfl
@[simp] theorem bufFlow_setNextSub (b : Buf) (t : Option Str) : bufFlow (b.setNextSub t) = bufFlow b := rfl
@[simp] theorem bufFlow_resetNextTag (b : Buf) : bufFlow b.resetNextTag = bufFlow b := rfl
@[simp] theorem bufFlow_resetNextSub (b : Buf) : bufFlow b.resetNextSub = bufFlow b := rfl

theorem toTextToken_text (cc : CharClass) (s : Str) (a b : Option Str) :
    (toTextToken cc s a b).text = s := rfl

theorem tokens_appendToken_text (cc : CharClass) (b : Buf) (s : Str) :
    toksText (b.appendToken cc s).tokens = toksText b.tokens ++ s := by
  unfold Buf.appendToken Buf.tokens
  cases h : b.rev with
  | nil => simp [toTextToken_text]
  | cons t ts => simp [toTextToken_text]

theorem tokens_appendTokens_text (cc : CharClass) (ss : List Str) (b : Buf) :
    toksText (b.appendTokens cc ss).tokens = toksText b.tokens ++ ss.flatten := by
  unfold Buf.appendTokens
  induction ss generalizing b with
  | nil => simp
  | cons s ss ih => simp [ih, tokens_appendToken_text]

theorem bufFlow_appendText (cc : CharClass) (b : Buf) (x : Option Str) :
    bufFlow (b.appendText cc x) = bufFlow b ++ Spec.chars x := by
  cases x with
  | none => simp [Buf.appendText, Spec.chars, orEmpty]
  | some s =>
    simp only [Buf.appendText]
    split
    · next h => simp_all [Spec.chars, orEmpty]
    · simp [bufFlow, tokens_appendTokens_text, tokenizeText_flatten, Spec.chars, orEmpty]

mutual
theorem extractElem_flow (cc : CharClass) (rp : List Str) (e : Elem) (path : List Str) (b : Buf)
    (r : List (List Tok) × Buf) (h : extractElem cc rp e path b = .ok r) :
    bufFlow b ++ Spec.flow e ++ Spec.chars e.tail = linesFlow r.1 ++ bufFlow r.2 := by
  match e with
  | .mk tg a x cs tl =>
    simp only [extractElem] at h
    split at h
    · cases h
    · next lines b3 hc =>
      cases h
      have := extractChildren_flow cc rp cs path _ _ hc
      rw [bufFlow_appendText] at this
      have e1 : ∀ (p q : Bool) (u : Option Str), bufFlow (if p = true then
          if q = true then b.setNextSub u else b.setNextTag u else b) = bufFlow b := by
        intro p q u; split
        · split <;> rfl
        · rfl
      rw [e1] at this
      have e2 : ∀ q : Bool, bufFlow (if q = true then b3.resetNextSub else b3.resetNextTag)
          = bufFlow b3 := by
        intro q; split <;> rfl
      simp only [bufFlow_appendText, e2, Spec.flow, Elem.tail]
      simp only [List.append_assoc] at this ⊢
      rw [← List.append_assoc (linesFlow lines), ← this]
      simp
theorem extractChildren_flow (cc : CharClass) (rp : List Str) (es : List Elem) (path : List Str)
    (b : Buf) (r : List (List Tok) × Buf) (h : extractChildren cc rp es path b = .ok r) :
    bufFlow b ++ Spec.flowList es = linesFlow r.1 ++ bufFlow r.2 := by
  match es with
  | [] => simp only [extractChildren] at h; cases h; simp [Spec.flowList]
  | .mk tag attrib text children tail :: es =>
    simp only [extractChildren] at h
    split at h
    · cases h
    · split at h
      · cases h
      · next lines1 b2 h1 =>
        split at h
        · cases h
        · next lines2 b3 h2 =>
          cases h
          have i1 := extractElem_flow cc rp _ _ _ _ h1
          have i2 := extractChildren_flow cc rp es path _ _ h2
          simp only [Spec.flowList, linesFlow_append]
          have e1 : bufFlow b ++ (if tag = c!"lb" then [none] else []) =
              linesFlow (if tag = lbTag then [b.flush.1] else []) ++
              bufFlow (if tag = lbTag then b.flush.2 else b) := by
            by_cases hl : tag = lbTag
            · have hl' : tag = c!"lb" := hl
              simp [hl, bufFlow, linesFlow, Buf.flush, Buf.tokens, lbTag]
            · have hl' : ¬ tag = c!"lb" := hl
              simp [hl, hl']
          simp only at i1 i2
          have e3 : (Elem.mk tag attrib text children tail).tail = tail := rfl
          rw [e3] at i1
          calc _ = (bufFlow b ++ (if tag = c!"lb" then [none] else [])) ++
                (Spec.flow (.mk tag attrib text children tail) ++ (Spec.chars tail ++ Spec.flowList es)) := by
                simp only [List.append_assoc]
            _ = linesFlow (if tag = lbTag then [b.flush.1] else []) ++
                ((bufFlow (if tag = lbTag then b.flush.2 else b) ++
                Spec.flow (.mk tag attrib text children tail) ++ Spec.chars tail) ++ Spec.flowList es) := by
                rw [e1]; simp only [List.append_assoc]
            _ = _ := by rw [i1]; simp only [List.append_assoc]; rw [i2]
end

/-! ### Splitting at breaks -/

theorem splitBreaks_ne_nil (r : List (Option Char)) : Spec.splitBreaks r ≠ [] := by
  induction r with
  | nil => simp [Spec.splitBreaks]
  | cons x r ih =>
    cases x
    · simp [Spec.splitBreaks]
    · simp only [Spec.splitBreaks]; split <;> simp

theorem splitBreaks_chars (s : Str) (r : List (Option Char)) :
    Spec.splitBreaks (s.map some ++ none :: r) = s :: Spec.splitBreaks r := by
  induction s with
  | nil => rfl
  | cons c s ih => simp [Spec.splitBreaks, ih]

theorem splitBreaks_chars_end (s : Str) : Spec.splitBreaks (s.map some) = [s] := by
  induction s with
  | nil => rfl
  | cons c s ih => simp [Spec.splitBreaks, ih]

theorem splitBreaks_lines (ls : List (List Tok)) (s : Str) :
    Spec.splitBreaks (linesFlow ls ++ s.map some) = ls.map toksText ++ [s] := by
  induction ls with
  | nil => simpa using splitBreaks_chars_end s
  | cons l ls ih =>
    have : linesFlow (l :: ls) ++ s.map some = (toksText l).map some ++ none :: (linesFlow ls ++ s.map some) := by
      simp [linesFlow]
    rw [this, splitBreaks_chars, ih]; rfl

theorem filterMap_chars (x : Option Str) : (Spec.chars x).filterMap id = orEmpty x := by
  simp [Spec.chars, List.filterMap_map]

mutual
theorem flow_text (e : Elem) : (Spec.flow e).filterMap id = itertext e := by
  match e with
  | .mk t a x cs tl => simp [Spec.flow, itertext, filterMap_chars, flowList_text cs]
theorem flowList_text (es : List Elem) : (Spec.flowList es).filterMap id = itertextList es := by
  match es with
  | [] => rfl
  | .mk t a x cs tl :: es =>
    simp only [Spec.flowList, itertextList, List.filterMap_append, filterMap_chars,
      flow_text (.mk t a x cs tl), flowList_text es]
    split <;> simp
end

theorem splitBreaks_flatten (r : List (Option Char)) :
    (Spec.splitBreaks r).flatten = r.filterMap id := by
  induction r with
  | nil => rfl
  | cons x r ih =>
    cases x with
    | none => simp [Spec.splitBreaks, ih]
    | some c =>
      simp only [Spec.splitBreaks]
      split
      · next h => exact absurd h (splitBreaks_ne_nil r)
      · next l ls h => rw [h] at ih; simp [← ih]

theorem splitBreaks_length (r : List (Option Char)) :
    (Spec.splitBreaks r).length = r.count none + 1 := by
  induction r with
  | nil => rfl
  | cons x r ih =>
    cases x with
    | none => simp [Spec.splitBreaks, ih]
    | some c =>
      simp only [Spec.splitBreaks]
      split
      · next h => exact absurd h (splitBreaks_ne_nil r)
      · next l ls h => rw [h] at ih; simpa using ih

theorem dropFinalEmpty_flatten (ls : List Str) : (Spec.dropFinalEmpty ls).flatten = ls.flatten := by
  unfold Spec.dropFinalEmpty
  split
  · next h =>
    obtain ⟨l, rfl⟩ := List.getLast?_eq_some_iff.1 h
    simp
  · rfl

/-! ### Errors -/

/-- At most one attribute. -/
def atMostOneAttrib (_ : Str) (a : Dict Str) : Prop := a.length ≤ 1

theorem nodeToTagExpression_ok {t : Str} {a : Dict Str} :
    (∃ s, nodeToTagExpression t a = .ok s) ↔ a.length ≤ 1 := by
  rcases a with _ | ⟨⟨k, v⟩, _ | ⟨p, a⟩⟩ <;> simp [nodeToTagExpression]

theorem nodeToTagExpression_eq {t : Str} {a : Dict Str} {s : Str}
    (h : nodeToTagExpression t a = .ok s) : s = Spec.component t a := by
  rcases a with _ | ⟨⟨k, v⟩, _ | ⟨p, a⟩⟩ <;> simp [nodeToTagExpression] at h <;>
    simp [Spec.component, ← h]

mutual
theorem extractElem_ok_iff (cc : CharClass) (rp : List Str) (e : Elem) (path : List Str) (b : Buf) :
    (∃ r, extractElem cc rp e path b = .ok r) ↔ Spec.allBelow atMostOneAttrib e := by
  match e with
  | .mk tg a x cs tl =>
    simp only [extractElem, Spec.allBelow]
    rw [← extractChildren_ok_iff cc rp cs path]
    constructor
    · rintro ⟨r, h⟩
      split at h
      · cases h
      · next hc => exact ⟨_, hc⟩
    · rintro ⟨r, h⟩
      exact ⟨_, by rw [h]⟩
theorem extractChildren_ok_iff (cc : CharClass) (rp : List Str) (es : List Elem) (path : List Str)
    (b : Buf) :
    (∃ r, extractChildren cc rp es path b = .ok r) ↔ Spec.allBelowList atMostOneAttrib es := by
  match es with
  | [] => simp [extractChildren, Spec.allBelowList]
  | .mk tag attrib text children tail :: es =>
    simp only [extractChildren, Spec.allBelowList]
    constructor
    · rintro ⟨r, h⟩
      split at h
      · cases h
      · next s hs =>
        split at h
        · cases h
        · next lines1 b2 h1 =>
          split at h
          · cases h
          · next lines2 b3 h2 =>
            exact ⟨nodeToTagExpression_ok.1 ⟨s, hs⟩, (extractElem_ok_iff cc rp _ _ _).1 ⟨_, h1⟩,
              (extractChildren_ok_iff cc rp es path _).1 ⟨_, h2⟩⟩
    · rintro ⟨h1, h2, h3⟩
      obtain ⟨s, hs⟩ := (nodeToTagExpression_ok (t := tag)).2 h1
      obtain ⟨r1, hr1⟩ := (extractElem_ok_iff cc rp _ (path ++ [s])
        (if tag = lbTag then b.flush.2 else b)).2 h2
      obtain ⟨r2, hr2⟩ := (extractChildren_ok_iff cc rp es path r1.2).2 h3
      refine ⟨((if tag = lbTag then [b.flush.1] else []) ++ r1.1 ++ r2.1, r2.2), ?_⟩
      rw [hs]; simp only [hr1, hr2]
end

/-! ### Main tags -/

/-- Text and main tag of a token. -/
def tokView (t : Tok) : Str × Option Str := (t.text, t.attrib.get? tagAttribName)

/-- The following tag: an inside tag of the same value. -/
def toInside (nt : Option Str) : Option Str := addTagPrefix (stripTagPrefix nt) (some iPrefix)

/-- Tags tokens starting with the pending tag `nt`. -/
def mark (nt : Option Str) : List Str → List (Str × Option Str)
  | [] => []
  | t :: ts => (t, nt) :: ts.map (fun t => (t, toInside nt))

/-- The pending tag after some tokens. -/
def after (nt : Option Str) : List Str → Option Str
  | [] => nt
  | _ :: _ => toInside nt

theorem toInside_toInside (nt : Option Str) : toInside (toInside nt) = toInside nt := by
  unfold toInside
  rcases h : stripTagPrefix nt with _ | _ | ⟨c, v⟩
  · rfl
  · rfl
  · rw [addTagPrefix_of_truthy (by simp) (by decide), stripTagPrefix_i,
      addTagPrefix_of_truthy (by simp) (by decide)]

theorem mark_append (nt : Option Str) (a b : List Str) :
    mark nt (a ++ b) = mark nt a ++ mark (after nt a) b := by
  cases a with
  | nil => rfl
  | cons t a =>
    cases b with
    | nil => simp [mark]
    | cons u b => simp [mark, after, toInside_toInside]

theorem after_append (nt : Option Str) (a b : List Str) :
    after nt (a ++ b) = after (after nt a) b := by
  cases a with
  | nil => rfl
  | cons t a => cases b with
    | nil => simp [after]
    | cons u b => simp [after, toInside_toInside]

theorem tokView_toTextToken (cc : CharClass) (s : Str) (a b : Option Str) :
    tokView (toTextToken cc s a b) = (s, a) := by
  unfold tokView toTextToken
  rcases a with _ | a <;> rcases b with _ | b <;> simp [Dict.set, Dict.get?, tagAttribName, subTagAttribName]

theorem appendToken_view (cc : CharClass) (b : Buf) (s : Str) :
    (b.appendToken cc s).tokens.map tokView = b.tokens.map tokView ++ [(s, b.nextTag)] ∧
    (b.appendToken cc s).nextTag = toInside b.nextTag := by
  refine ⟨?_, rfl⟩
  unfold Buf.appendToken Buf.tokens
  cases h : b.rev with
  | nil => simp [tokView_toTextToken]
  | cons t ts => simp [tokView_toTextToken]; rfl

theorem appendTokens_view (cc : CharClass) (ss : List Str) (b : Buf) :
    (b.appendTokens cc ss).tokens.map tokView = b.tokens.map tokView ++ mark b.nextTag ss ∧
    (b.appendTokens cc ss).nextTag = after b.nextTag ss := by
  unfold Buf.appendTokens
  induction ss generalizing b with
  | nil => simp [mark, after]
  | cons s ss ih =>
    obtain ⟨h1, h2⟩ := ih (b.appendToken cc s)
    obtain ⟨h3, h4⟩ := appendToken_view cc b s
    rw [List.foldl_cons, h1, h2, h3, h4]
    have := mark_append b.nextTag [s] ss
    have h5 := after_append b.nextTag [s] ss
    simp only [List.singleton_append] at this h5
    rw [this, h5]
    simp [mark, after]

/-- The tokens of a text node. -/
def nodeToks (cc : CharClass) (nodes : List Str) : List Str :=
  nodes.flatMap (Spec.cutAt (Spec.tokenBoundary cc))

@[simp] theorem nodeToks_append (cc : CharClass) (a b : List Str) :
    nodeToks cc (a ++ b) = nodeToks cc a ++ nodeToks cc b := by simp [nodeToks]

theorem appendText_view (cc : CharClass) (b : Buf) (x : Option Str) :
    (b.appendText cc x).tokens.map tokView =
      b.tokens.map tokView ++ mark b.nextTag (nodeToks cc [orEmpty x]) ∧
    (b.appendText cc x).nextTag = after b.nextTag (nodeToks cc [orEmpty x]) := by
  cases x with
  | none => simp [Buf.appendText, nodeToks, orEmpty, Spec.cutAt, mark, after]
  | some s =>
    simp only [Buf.appendText]
    split
    · next h =>
      have : s = [] := by simpa using h
      subst this
      simp [nodeToks, orEmpty, Spec.cutAt, mark, after]
    · have := appendTokens_view cc (tokenizeText cc s) b
      rw [tokenizeText_eq_cutAt] at this
      simpa [nodeToks, orEmpty, tokenizeText_eq_cutAt] using this

/-- Views of all tokens produced so far. -/
def outView (ls : List (List Tok)) (b : Buf) : List (Str × Option Str) :=
  (ls.flatten ++ b.tokens).map tokView

theorem truthy_toInside {nt : Option Str} (v : Str) (hv : v ≠ [])
    (h : nt = some (bPrefix ++ v) ∨ nt = some (iPrefix ++ v)) : toInside nt = some (iPrefix ++ v) := by
  rcases h with rfl | rfl <;> simp only [toInside, stripTagPrefix_b, stripTagPrefix_i] <;>
    exact addTagPrefix_of_truthy hv (by decide)

/-- A pending tag with a non-empty value. -/
def GoodTag (nt : Option Str) : Prop := ∃ v, v ≠ [] ∧ (nt = some (bPrefix ++ v) ∨ nt = some (iPrefix ++ v))

theorem GoodTag.truthy {nt : Option Str} (h : GoodTag nt) : Verif.truthy nt = true := by
  obtain ⟨v, _, rfl | rfl⟩ := h <;> rfl

theorem GoodTag.after {nt : Option Str} (h : GoodTag nt) (l : List Str) : GoodTag (after nt l) := by
  obtain ⟨v, hv, h⟩ := h
  cases l with
  | nil => exact ⟨v, hv, h⟩
  | cons t l => exact ⟨v, hv, .inr (truthy_toInside v hv h)⟩

mutual
/-- Inside a tagged element all text continues the pending tag. -/
theorem extractElem_inside (cc : CharClass) (rp : List Str) (e : Elem) (path : List Str) (b : Buf)
    (r : List (List Tok) × Buf) (h : extractElem cc rp e path b = .ok r) (hg : GoodTag b.nextTag) :
    outView r.1 r.2 = b.tokens.map tokView ++
      mark b.nextTag (nodeToks cc (Spec.textNodes e ++ [orEmpty e.tail])) ∧
    r.2.nextTag = after b.nextTag (nodeToks cc (Spec.textNodes e ++ [orEmpty e.tail])) := by
  match e with
  | .mk tg a x cs tl =>
    simp only [extractElem, hg.truthy, if_true] at h
    split at h
    · cases h
    · next lines b3 hc =>
      cases h
      generalize hb1 : (if hasDirectText cc x cs || _ then b.setNextSub (pathTag path) else b) = b1 at hc
      have hb1' : b1.tokens = b.tokens ∧ b1.nextTag = b.nextTag := by
        rw [← hb1]; constructor <;> (split <;> rfl)
      obtain ⟨t1, t2⟩ := appendText_view cc b1 x
      rw [hb1'.1, hb1'.2] at t1
      rw [hb1'.2] at t2
      obtain ⟨c1, c2⟩ := extractChildren_inside cc rp cs path _ _ hc (by rw [t2]; exact hg.after _)
      obtain ⟨a1, a2⟩ := appendText_view cc b3.resetNextSub tl
      have e1 : b3.resetNextSub.nextTag = b3.nextTag := rfl
      have e2 : b3.resetNextSub.tokens = b3.tokens := rfl
      simp only at c1 c2
      rw [e1] at a1 a2
      rw [e2] at a1
      refine ⟨?_, ?_⟩
      · have : outView lines (b3.resetNextSub.appendText cc tl) =
            outView lines b3 ++ mark b3.nextTag (nodeToks cc [orEmpty tl]) := by
          simp only [outView, List.map_append, a1, List.append_assoc]
        rw [this, c1, c2, t1, t2]
        simp only [Spec.textNodes, Elem.tail]
        rw [show orEmpty x :: Spec.textNodesList cs ++ [orEmpty tl] =
          [orEmpty x] ++ Spec.textNodesList cs ++ [orEmpty tl] by simp]
        simp only [nodeToks_append, mark_append, List.append_assoc]
      · rw [a2, c2, t2]
        simp only [Spec.textNodes, Elem.tail]
        rw [show orEmpty x :: Spec.textNodesList cs ++ [orEmpty tl] =
          [orEmpty x] ++ Spec.textNodesList cs ++ [orEmpty tl] by simp]
        simp only [nodeToks_append, after_append]
theorem extractChildren_inside (cc : CharClass) (rp : List Str) (es : List Elem) (path : List Str)
    (b : Buf) (r : List (List Tok) × Buf) (h : extractChildren cc rp es path b = .ok r)
    (hg : GoodTag b.nextTag) :
    outView r.1 r.2 = b.tokens.map tokView ++ mark b.nextTag (nodeToks cc (Spec.textNodesList es)) ∧
    r.2.nextTag = after b.nextTag (nodeToks cc (Spec.textNodesList es)) := by
  match es with
  | [] =>
    simp only [extractChildren] at h; cases h
    simp [Spec.textNodesList, nodeToks, mark, after, outView]
  | .mk tag attrib text children tail :: es =>
    simp only [extractChildren] at h
    split at h
    · cases h
    · split at h
      · cases h
      · next lines1 b2 h1 =>
        split at h
        · cases h
        · next lines2 b3 h2 =>
          cases h
          have hn : (if tag = lbTag then b.flush.2 else b).nextTag = b.nextTag := by split <;> rfl
          obtain ⟨i1, i2⟩ := extractElem_inside cc rp _ _ _ _ h1 (by rw [hn]; exact hg)
          rw [hn] at i1 i2
          have hg2 : GoodTag b2.nextTag := by
            have := i2; simp only at this; rw [this]; exact hg.after _
          obtain ⟨j1, j2⟩ := extractChildren_inside cc rp es path _ _ h2 hg2
          simp only at i1 i2 j1 j2
          have ht : (Elem.mk tag attrib text children tail).tail = tail := rfl
          rw [ht] at i1 i2
          have k1 : outView ((if tag = lbTag then [b.flush.1] else []) ++ lines1 ++ lines2) b3 =
              ((if tag = lbTag then [b.flush.1] else []).flatten ++ lines1.flatten).map tokView ++
                outView lines2 b3 := by
            simp [outView]
          have k2 : (if tag = lbTag then [b.flush.1] else []).flatten.map tokView ++
              (if tag = lbTag then b.flush.2 else b).tokens.map tokView = b.tokens.map tokView := by
            split <;> simp [Buf.flush, Buf.tokens]
          refine ⟨?_, ?_⟩
          · rw [k1, j1]
            simp only [Spec.textNodesList, nodeToks_append, mark_append, after_append] at i1 i2 ⊢
            simp only [outView, List.map_append] at i1
            simp only [List.map_append]
            rw [i2]
            rw [← k2]
            simp only [List.append_assoc] at i1 ⊢
            rw [← List.append_assoc (lines1.flatten.map tokView), i1]
            simp only [List.append_assoc]
          · rw [j2, i2]
            simp only [Spec.textNodesList, nodeToks_append, after_append]
end

theorem mark_none (l : List Str) : mark none l = l.map (fun t => (t, none)) := by
  cases l <;> simp [mark, toInside, addTagPrefix]

theorem after_none (l : List Str) : after none l = none := by
  cases l <;> simp [after, toInside, addTagPrefix]

theorem mark_b (p : Str) (hp : p ≠ []) (l : List Str) :
    mark (some (bPrefix ++ p)) l = Spec.beginInside p l := by
  cases l with
  | nil => rfl
  | cons t l => simp only [mark, Spec.beginInside, truthy_toInside p hp (.inl rfl)]; rfl

theorem joinWith_ne_nil {sep : Str} {path : List Str} (h : path ≠ []) (hp : ∀ c ∈ path, c ≠ []) :
    joinWith sep path ≠ [] := by
  match path with
  | [x] => simpa [joinWith] using hp x (by simp)
  | x :: y :: xs => simp [joinWith, hp x (by simp)]

theorem component_ne_nil {t : Str} {a : Dict Str} (h : t ≠ []) : Spec.component t a ≠ [] := by
  rcases a with _ | ⟨⟨k, v⟩, a⟩ <;> simp [Spec.component, h]

/-- Tags are not empty. -/
def namedTag (t : Str) (_ : Dict Str) : Prop := t ≠ []

theorem isTagged_eq (cc : CharClass) (rp path : List Str) (x : Option Str) (cs : List Elem)
    (hp : path ≠ []) :
    (hasDirectText cc x cs || (pathTag path).any (fun t => rp.contains t)) = Spec.isTagged cc rp path x cs := by
  cases path with
  | nil => exact absurd rfl hp
  | cons c path => rfl

mutual
/-- Outside of tagged elements: the tokens are those of the segments. -/
theorem extractElem_outside (cc : CharClass) (rp : List Str) (e : Elem) (path : List Str) (b : Buf)
    (r : List (List Tok) × Buf) (h : extractElem cc rp e path b = .ok r) (hn : b.nextTag = none)
    (hp : ∀ c ∈ path, c ≠ []) (hnames : Spec.allBelow namedTag e) :
    outView r.1 r.2 = b.tokens.map tokView ++
      (Spec.segments cc rp path e ++ [(none, [orEmpty e.tail])]).flatMap (Spec.segmentTokens cc) ∧
    r.2.nextTag = none := by
  match e with
  | .mk tg a x cs tl =>
    simp only [extractElem] at h
    split at h
    · cases h
    · next lines b3 hc =>
      cases h
      rw [hn] at hc ⊢
      have ht0 : truthy none = false := rfl
      simp only [ht0] at hc ⊢
      obtain ⟨a1, a2⟩ := appendText_view cc b3.resetNextTag tl
      have e1 : b3.resetNextTag.nextTag = none := rfl
      have e2 : b3.resetNextTag.tokens = b3.tokens := rfl
      rw [e1, mark_none] at a1
      rw [e1, after_none] at a2
      rw [e2] at a1
      refine ⟨?_, a2⟩
      have hout : outView lines (b3.resetNextTag.appendText cc tl) =
            outView lines b3 ++ (nodeToks cc [orEmpty tl]).map (fun t => (t, none)) := by
        simp only [outView, List.map_append, a1, List.append_assoc]
      simp only [Bool.false_eq_true, if_false]
      rw [hout]
      simp only [List.flatMap_append, Elem.tail]
      rw [← List.append_assoc]
      have htl : List.flatMap (Spec.segmentTokens cc) [(none, [orEmpty tl])] =
          (nodeToks cc [orEmpty tl]).map (fun t => (t, none)) := by
        simp [Spec.segmentTokens, nodeToks]
      rw [htl]
      congr 1
      by_cases hq : path ≠ [] ∧ Spec.isTagged cc rp path x cs = true
      · rw [Spec.segments, if_pos hq]
        rw [isTagged_eq cc rp path x cs hq.1] at hc
        rw [if_pos hq.2] at hc
        have hj : joinWith c!"/" path ≠ [] := joinWith_ne_nil hq.1 hp
        have hb1 : (b.setNextTag (pathTag path)).nextTag = some (bPrefix ++ joinWith c!"/" path) := by
          have : pathTag path = some (joinWith c!"/" path) := by
            cases path with
            | nil => exact absurd rfl hq.1
            | cons c p => rfl
          simp only [Buf.setNextTag, this]
          exact addTagPrefix_of_truthy hj (by decide)
        simp only [Bool.false_eq_true, if_false] at hc
        obtain ⟨t1, t2⟩ := appendText_view cc (b.setNextTag (pathTag path)) x
        rw [hb1] at t1 t2
        have hg : GoodTag (some (bPrefix ++ joinWith c!"/" path)) := ⟨_, hj, .inl rfl⟩
        obtain ⟨c1, _⟩ := extractChildren_inside cc rp cs path _ _ hc (by rw [t2]; exact hg.after _)
        simp only at c1
        rw [c1, t1, t2]
        have : (b.setNextTag (pathTag path)).tokens = b.tokens := rfl
        rw [this, List.append_assoc, ← mark_append, ← nodeToks_append, mark_b _ hj]
        simp [Spec.segmentTokens, Spec.textNodes, nodeToks]
      · rw [Spec.segments, if_neg hq]
        have hc' : extractChildren cc rp cs path (b.appendText cc x) = .ok (lines, b3) := by
          by_cases hpath : path = []
          · subst hpath
            rw [← hc]
            congr 2
            split
            · have : b.setNextTag (pathTag []) = b := by
                cases b; simp only at hn; subst hn; rfl
              simp [this]
            · rfl
          · rw [isTagged_eq cc rp path x cs hpath] at hc
            have : ¬ Spec.isTagged cc rp path x cs = true := fun hh => hq ⟨hpath, hh⟩
            rw [if_neg this] at hc
            exact hc
        obtain ⟨t1, t2⟩ := appendText_view cc b x
        rw [hn, mark_none] at t1
        rw [hn, after_none] at t2
        obtain ⟨c1, _⟩ := extractChildren_outside cc rp cs path _ _ hc' t2 hp hnames
        simp only at c1
        rw [c1, t1]
        simp [Spec.segmentTokens, nodeToks]
theorem extractChildren_outside (cc : CharClass) (rp : List Str) (es : List Elem) (path : List Str)
    (b : Buf) (r : List (List Tok) × Buf) (h : extractChildren cc rp es path b = .ok r)
    (hn : b.nextTag = none) (hp : ∀ c ∈ path, c ≠ []) (hnames : Spec.allBelowList namedTag es) :
    outView r.1 r.2 = b.tokens.map tokView ++
      (Spec.segmentsList cc rp path es).flatMap (Spec.segmentTokens cc) ∧
    r.2.nextTag = none := by
  match es with
  | [] =>
    simp only [extractChildren] at h; cases h
    exact ⟨by simp [Spec.segmentsList, outView], hn⟩
  | .mk tag attrib text children tail :: es =>
    simp only [extractChildren] at h
    split at h
    · cases h
    · next s hs =>
      split at h
      · cases h
      · next lines1 b2 h1 =>
        split at h
        · cases h
        · next lines2 b3 h2 =>
          cases h
          rw [Spec.allBelowList] at hnames
          obtain ⟨hn1, hn2, hn3⟩ := hnames
          have hb : (if tag = lbTag then b.flush.2 else b).nextTag = none := by
            rw [← hn]; split <;> rfl
          have hs' := nodeToTagExpression_eq hs
          subst hs'
          obtain ⟨i1, i2⟩ := extractElem_outside cc rp _ _ _ _ h1 hb
            (by
              intro c hc
              rcases List.mem_append.1 hc with hc | hc
              · exact hp c hc
              · rw [List.mem_singleton.1 hc]; exact component_ne_nil hn1) hn2
          obtain ⟨j1, j2⟩ := extractChildren_outside cc rp es path _ _ h2 i2 hp hn3
          refine ⟨?_, j2⟩
          simp only at i1 j1
          have k1 : outView ((if tag = lbTag then [b.flush.1] else []) ++ lines1 ++ lines2) b3 =
              ((if tag = lbTag then [b.flush.1] else []).flatten ++ lines1.flatten).map tokView ++
                outView lines2 b3 := by
            simp [outView]
          have k2 : (if tag = lbTag then [b.flush.1] else []).flatten.map tokView ++
              (if tag = lbTag then b.flush.2 else b).tokens.map tokView = b.tokens.map tokView := by
            split <;> simp [Buf.flush, Buf.tokens]
          have ht : (Elem.mk tag attrib text children tail).tail = tail := rfl
          rw [ht] at i1
          rw [k1, j1, Spec.segmentsList, List.flatMap_append]
          simp only [outView, List.map_append] at i1 ⊢
          rw [← k2]
          simp only [List.append_assoc] at i1 ⊢
          rw [← List.append_assoc (lines1.flatten.map tokView), i1]
          simp only [List.append_assoc]
end

/-! ### White space attributes -/

/-- `t.whitespace` describes the following token `u`. -/
def wsLink (cc : CharClass) (t u : Tok) : Prop :=
  t.whitespace = some (if (strip cc u.text).isEmpty then u.text else [])

/-- The white space attributes below a newer token `u`, newest first. -/
def wsChain (cc : CharClass) (u : Tok) : List Tok → Prop
  | [] => True
  | t :: ts => wsLink cc t u ∧ wsChain cc t ts

def wsRev (cc : CharClass) : List Tok → Prop
  | [] => True
  | u :: ts => u.whitespace = none ∧ wsChain cc u ts

theorem wsChain_congr (cc : CharClass) {u v : Tok} (h : u.text = v.text) (ts : List Tok) :
    wsChain cc u ts ↔ wsChain cc v ts := by
  cases ts <;> simp [wsChain, wsLink, h]

theorem appendToken_ws (cc : CharClass) (b : Buf) (s : Str) (h : wsRev cc b.rev) :
    wsRev cc (b.appendToken cc s).rev := by
  unfold Buf.appendToken
  cases hb : b.rev with
  | nil => simp [wsRev, wsChain, toTextToken]
  | cons t ts =>
    rw [hb] at h
    simp only [wsRev, wsChain]
    refine ⟨rfl, rfl, ?_⟩
    refine (wsChain_congr cc ?_ ts).1 h.2; rfl

/-- A property of the (reversed) tokens of a line that every step of the buffer keeps. -/
structure TokInv (cc : CharClass) (P : List Tok → Prop) : Prop where
  nil : P []
  step : ∀ (b : Buf) (s : Str), s ≠ [] → P b.rev → P (b.appendToken cc s).rev

theorem wsInv (cc : CharClass) : TokInv cc (wsRev cc) := ⟨trivial, fun b s _ h => appendToken_ws cc b s h⟩

theorem neInv (cc : CharClass) : TokInv cc (fun ts => ∀ t ∈ ts, t.text ≠ []) := by
  refine ⟨by simp, ?_⟩
  intro b s hs h t ht
  unfold Buf.appendToken at ht
  cases hb : b.rev with
  | nil =>
    rw [hb] at ht
    rw [List.mem_singleton.1 ht]; exact hs
  | cons u us =>
    rw [hb] at ht h
    simp only [List.mem_cons] at ht
    rcases ht with rfl | rfl | ht
    · exact hs
    · exact h u (by simp)
    · exact h t (by simp [ht])

theorem appendText_inv {cc : CharClass} {P : List Tok → Prop} (hP : TokInv cc P) (b : Buf) (x : Option Str)
    (h : P b.rev) : P (b.appendText cc x).rev := by
  cases x with
  | none => exact h
  | some s =>
    simp only [Buf.appendText]
    split
    · exact h
    · unfold Buf.appendTokens
      have hne := tokenizeText_ne_nil cc s
      generalize tokenizeText cc s = ss at hne
      induction ss generalizing b with
      | nil => exact h
      | cons s ss ih =>
        exact ih _ (hP.step b s (hne s (by simp)) h) (fun t ht => hne t (by simp [ht]))

mutual
theorem extractElem_inv {cc : CharClass} {P : List Tok → Prop} (hP : TokInv cc P) (rp : List Str)
    (e : Elem) (path : List Str) (b : Buf)
    (r : List (List Tok) × Buf) (h : extractElem cc rp e path b = .ok r) (hb : P b.rev) :
    (∀ l ∈ r.1, P l.reverse) ∧ P r.2.rev := by
  match e with
  | .mk tg a x cs tl =>
    simp only [extractElem] at h
    split at h
    · cases h
    · next lines b3 hc =>
      cases h
      obtain ⟨h1, h2⟩ := extractChildren_inv hP rp cs path _ _ hc
        (appendText_inv hP _ _ (by split <;> (try split) <;> exact hb))
      exact ⟨h1, appendText_inv hP _ _ (by split <;> exact h2)⟩
theorem extractChildren_inv {cc : CharClass} {P : List Tok → Prop} (hP : TokInv cc P) (rp : List Str)
    (es : List Elem) (path : List Str)
    (b : Buf) (r : List (List Tok) × Buf) (h : extractChildren cc rp es path b = .ok r)
    (hb : P b.rev) : (∀ l ∈ r.1, P l.reverse) ∧ P r.2.rev := by
  match es with
  | [] => simp only [extractChildren] at h; cases h; exact ⟨by simp, hb⟩
  | .mk tag attrib text children tail :: es =>
    simp only [extractChildren] at h
    split at h
    · cases h
    · split at h
      · cases h
      · next lines1 b2 h1 =>
        split at h
        · cases h
        · next lines2 b3 h2 =>
          cases h
          obtain ⟨i1, i2⟩ := extractElem_inv hP rp _ _ _ _ h1 (by
            split
            · exact hP.nil
            · exact hb)
          obtain ⟨j1, j2⟩ := extractChildren_inv hP rp es path _ _ h2 i2
          refine ⟨?_, j2⟩
          intro l hl
          simp only [List.mem_append] at hl
          rcases hl with (hl | hl) | hl
          · split at hl
            · rw [List.mem_singleton.1 hl]; simpa [Buf.flush, Buf.tokens] using hb
            · simp at hl
          · exact i1 l hl
          · exact j1 l hl
end

theorem extractContainersFrom_inv {cc : CharClass} {P : List Tok → Prop} (hP : TokInv cc P)
    (rp : List Str) (es : List Elem) (b : Buf)
    (ls : List (List Tok)) (h : extractContainersFrom cc rp es b = .ok ls) (hb : P b.rev) :
    ∀ l ∈ ls, P l.reverse := by
  induction es generalizing b ls with
  | nil => simp only [extractContainersFrom] at h; cases h; simp
  | cons e es ih =>
    simp only [extractContainersFrom] at h
    split at h
    · cases h
    · next lines b1 h1 =>
      split at h
      · cases h
      · next rest h2 =>
        cases h
        obtain ⟨i1, i2⟩ := extractElem_inv hP rp _ _ _ _ h1 hb
        have := ih _ _ h2 (by
          split
          · exact i2
          · exact hP.nil)
        intro l hl
        simp only [List.mem_append] at hl
        rcases hl with (hl | hl) | hl
        · exact i1 l hl
        · split at hl
          · simp at hl
          · rw [List.mem_singleton.1 hl]; simpa [Buf.flush, Buf.tokens] using i2
        · exact this l hl

/-- A token of a line and the one following it. -/
theorem wsRev_reverse (cc : CharClass) (l : List Tok) (h : wsRev cc l.reverse) :
    (∀ (pre post : List Tok) (t u : Tok), l = pre ++ t :: u :: post → wsLink cc t u) ∧
    (∀ t, l.getLast? = some t → t.whitespace = none) := by
  constructor
  · intro pre post t u hl
    subst hl
    simp only [List.reverse_append, List.reverse_cons, List.append_assoc] at h
    have key : ∀ (r : List Tok) (x : Tok), wsChain cc x (r ++ ([u] ++ ([t] ++ pre.reverse))) → wsLink cc t u := by
      intro r
      induction r with
      | nil => intro x hx; exact hx.2.1
      | cons y r ih => intro x hx; exact ih y hx.2
    cases hr : post.reverse with
    | nil => rw [hr] at h; exact h.2.1
    | cons y r => rw [hr] at h; exact key r y h.2
  · intro t ht
    rw [List.getLast?_eq_head?_reverse] at ht
    cases hr : l.reverse with
    | nil => rw [hr] at ht; cases ht
    | cons y r => rw [hr] at ht h; cases ht; exact h.1

/-! ### Containers -/

theorem extractContainersFrom_ok_iff (cc : CharClass) (rp : List Str) (es : List Elem) (b : Buf) :
    (∃ r, extractContainersFrom cc rp es b = .ok r) ↔ ∀ e ∈ es, Spec.allBelow atMostOneAttrib e := by
  induction es generalizing b with
  | nil => simp [extractContainersFrom]
  | cons e es ih =>
    simp only [extractContainersFrom, List.forall_mem_cons]
    rw [← extractElem_ok_iff cc rp e [] b]
    constructor
    · rintro ⟨r, h⟩
      split at h
      · cases h
      · next lines b1 h1 =>
        split at h
        · cases h
        · next h2 => exact ⟨⟨_, h1⟩, (ih _).1 ⟨_, h2⟩⟩
    · rintro ⟨⟨r, h⟩, h2⟩
      rw [h]
      simp only
      obtain ⟨r2, hr2⟩ := (ih (if r.2.rev.isEmpty = true then r.2 else r.2.flush.2)).2 h2
      exact ⟨r.1 ++ (if r.2.rev.isEmpty = true then [] else [r.2.flush.1]) ++ r2, by rw [hr2]⟩

mutual
theorem extractElem_error (cc : CharClass) (rp : List Str) (e : Elem) (path : List Str) (b : Buf)
    (err : Err) (h : extractElem cc rp e path b = .error err) : err = .valueError := by
  match e with
  | .mk tg a x cs tl =>
    simp only [extractElem] at h
    split at h
    · next hc => cases h; exact extractChildren_error cc rp _ _ _ _ hc
    · cases h
theorem extractChildren_error (cc : CharClass) (rp : List Str) (es : List Elem) (path : List Str)
    (b : Buf) (err : Err) (h : extractChildren cc rp es path b = .error err) : err = .valueError := by
  match es with
  | [] => simp only [extractChildren] at h; cases h
  | .mk tag attrib text children tail :: es =>
    simp only [extractChildren] at h
    split at h
    · next e he =>
      cases h
      rcases attrib with _ | ⟨p, _ | ⟨q, a⟩⟩ <;> simp [nodeToTagExpression] at he
      exact he.symm
    · split at h
      · next hc => cases h; exact extractElem_error cc rp _ _ _ _ hc
      · split at h
        · next hc => cases h; exact extractChildren_error cc rp _ _ _ _ hc
        · cases h
end

theorem extractContainersFrom_error (cc : CharClass) (rp : List Str) (es : List Elem) (b : Buf)
    (err : Err) (h : extractContainersFrom cc rp es b = .error err) : err = .valueError := by
  induction es generalizing b with
  | nil => simp [extractContainersFrom] at h
  | cons e es ih =>
    simp only [extractContainersFrom] at h
    split at h
    · next hc => cases h; exact extractElem_error cc rp _ _ _ _ hc
    · split at h
      · next hc => cases h; exact ih _ hc
      · cases h

/-- The lines of the containers: each container contributes its text split at the line breaks,
without an empty rest. -/
theorem extractContainersFrom_lines (cc : CharClass) (rp : List Str) (es : List Elem) (b : Buf)
    (ls : List (List Tok)) (h : extractContainersFrom cc rp es b = .ok ls) (hb : b.rev = []) :
    ls.map toksText =
      es.flatMap (fun e => Spec.dropFinalEmpty (Spec.splitBreaks (Spec.flow e ++ Spec.chars e.tail))) := by
  induction es generalizing b ls with
  | nil => simp only [extractContainersFrom] at h; cases h; rfl
  | cons e es ih =>
    simp only [extractContainersFrom] at h
    split at h
    · cases h
    · next lines b1 h1 =>
      split at h
      · cases h
      · next rest h2 =>
        cases h
        have hr := ih _ _ h2 (by
          split
          · next hh => simpa using hh
          · rfl)
        have hf := extractElem_flow cc rp e [] b _ h1
        have hne := (extractElem_inv (neInv cc) rp e [] b _ h1 (by simp [hb])).2
        simp only at hf hne
        have hb0 : bufFlow b = [] := by simp [bufFlow, Buf.tokens, hb]
        rw [hb0, List.nil_append] at hf
        rw [List.flatMap_cons, hf, bufFlow, splitBreaks_lines, ← hr]
        cases hrev : b1.rev with
        | nil =>
          simp [Buf.tokens, hrev, Spec.dropFinalEmpty]
        | cons t ts =>
          have hne' : toksText b1.tokens ≠ [] := by
            have := hne t (by simp [hrev])
            simp [Buf.tokens, hrev, this]
          have : Spec.dropFinalEmpty (lines.map toksText ++ [toksText b1.tokens]) =
              lines.map toksText ++ [toksText b1.tokens] := by
            simp [Spec.dropFinalEmpty, hne']
          rw [this]
          simp [Buf.flush]

/-- The tagged tokens of the containers. -/
theorem extractContainersFrom_tags (cc : CharClass) (rp : List Str) (es : List Elem) (b : Buf)
    (ls : List (List Tok)) (h : extractContainersFrom cc rp es b = .ok ls) (hb : b.rev = [])
    (hn : b.nextTag = none) (hnames : ∀ e ∈ es, Spec.allBelow namedTag e) :
    ls.flatten.map tokView =
      es.flatMap (fun e => (Spec.segments cc rp [] e ++ [(none, [orEmpty e.tail])]).flatMap
        (Spec.segmentTokens cc)) := by
  induction es generalizing b ls with
  | nil => simp only [extractContainersFrom] at h; cases h; rfl
  | cons e es ih =>
    simp only [extractContainersFrom] at h
    split at h
    · cases h
    · next lines b1 h1 =>
      split at h
      · cases h
      · next rest h2 =>
        cases h
        obtain ⟨i1, i2⟩ := extractElem_outside cc rp e [] b _ h1 hn (by simp) (hnames e (by simp))
        simp only at i1 i2
        have hr := ih _ _ h2 (by
          split
          · next hh => simpa using hh
          · rfl) (by rw [← i2]; split <;> rfl) (fun e he => hnames e (by simp [he]))
        have hb0 : b.tokens = [] := by simp [Buf.tokens, hb]
        rw [hb0, List.map_nil, List.nil_append] at i1
        rw [List.flatMap_cons, ← hr, ← i1]
        simp only [outView]
        cases hrev : b1.rev with
        | nil => simp [Buf.tokens, hrev]
        | cons t ts => simp [Buf.flush]

end Verif
