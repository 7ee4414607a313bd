/-
Sub tags of a loaded element, read from the sequence of its starts, ends and characters.
-/
import Verif.Lemmas.Reload
import Verif.Lemmas.ReloadBlocks
import Verif.Props.TeiLoad

namespace Verif
open Spec

/-- The start of an element (with its path component), its end, or a character. -/
inductive TEv where
  | start (component : Str)
  | stop
  | ch (c : Char)

def chEvs (s : Str) : List TEv := s.map TEv.ch

mutual
/-- What is inside of an element. -/
def elemTrace : Elem → List TEv
  | .mk _ _ x cs _ => chEvs (orEmpty x) ++ listTrace cs
def listTrace : List Elem → List TEv
  | [] => []
  | .mk t a x cs tl :: es =>
    TEv.start (component t a) :: (elemTrace (.mk t a x cs tl) ++ TEv.stop :: (chEvs (orEmpty tl) ++ listTrace es))
end

/-! ### Looking ahead for text -/

/-- Whether there is text directly in the element with `n` elements open inside of it. -/
def directHere (cc : CharClass) : Nat → List TEv → Bool
  | _, [] => false
  | 0, .stop :: _ => false
  | n + 1, .stop :: r => directHere cc n r
  | n, .start _ :: r => directHere cc (n + 1) r
  | n, .ch c :: r => (decide (n = 0) && !cc.isSpace c) || directHere cc n r

theorem directHere_chEvs (cc : CharClass) (n : Nat) (s : Str) (r : List TEv) :
    directHere cc n (chEvs s ++ r) = ((decide (n = 0) && s.any (fun c => !cc.isSpace c)) || directHere cc n r) := by
  induction s with
  | nil => simp [chEvs]
  | cons c s ih =>
    show directHere cc n (.ch c :: (chEvs s ++ r)) = _
    rw [directHere, ih, List.any_cons, Bool.and_or_distrib_left, Bool.or_assoc]

theorem directHere_start (cc : CharClass) (n : Nat) (c : Str) (r : List TEv) :
    directHere cc n (.start c :: r) = directHere cc (n + 1) r := by rw [directHere]

mutual
theorem directHere_elem (cc : CharClass) (n : Nat) (e : Elem) (r : List TEv) :
    directHere cc (n + 1) (elemTrace e ++ r) = directHere cc (n + 1) r := by
  match e with
  | .mk t a x cs tl =>
    rw [elemTrace, List.append_assoc, directHere_chEvs, directHere_listDeep cc n cs r]
    simp
theorem directHere_listDeep (cc : CharClass) (n : Nat) (es : List Elem) (r : List TEv) :
    directHere cc (n + 1) (listTrace es ++ r) = directHere cc (n + 1) r := by
  match es with
  | [] => simp [listTrace]
  | .mk t a x cs tl :: es =>
    rw [listTrace, List.cons_append, directHere_start, List.append_assoc, directHere_elem cc (n + 1) (.mk t a x cs tl),
      List.cons_append, directHere, List.append_assoc, directHere_chEvs, directHere_listDeep cc n es r]
    simp
end

theorem directHere_list (cc : CharClass) (es : List Elem) (r : List TEv) :
    directHere cc 0 (listTrace es ++ r) = (es.any (fun c => !isBlank cc c.tail) || directHere cc 0 r) := by
  induction es with
  | nil => simp [listTrace]
  | cons e es ih =>
    obtain ⟨t, a, x, cs, tl⟩ := e
    rw [listTrace, List.cons_append, directHere_start, List.append_assoc, directHere_elem, List.cons_append, directHere,
      List.append_assoc, directHere_chEvs, ih, List.any_cons]
    simp only [Elem.tail, isBlank_any, decide_true, Bool.true_and, Bool.or_assoc]

theorem directHere_content (cc : CharClass) (t : Str) (a : Dict Str) (x : Option Str) (cs : List Elem) (tl : Option Str) (r : List TEv) :
    directHere cc 0 (elemTrace (.mk t a x cs tl) ++ .stop :: r) = (!isBlank cc x || cs.any (fun c => !isBlank cc c.tail)) := by
  rw [elemTrace, List.append_assoc, directHere_chEvs, directHere_list, isBlank_any]
  simp [directHere]

/-! ### Reading sub tags -/

/-- The current sub tag and whether there was no text yet since its element started. -/
abbrev SubSt := Option (Str × Bool)

/-- A character was read. -/
def SubSt.age (s : SubSt) : SubSt := s.map (fun p => (p.1, false))

/-- A sub tag whose element just started. -/
def freshSub (v : Option Str) : SubSt := v.map (fun p => (p, true))

/-- Characters with their sub tags. -/
def agedChars (s : SubSt) : Str → List (Char × SubSt)
  | [] => []
  | c :: cs => (c, s) :: agedChars s.age cs

def ageBy (s : SubSt) : Str → SubSt
  | [] => s
  | _ :: cs => ageBy s.age cs

theorem age_age (s : SubSt) : s.age.age = s.age := by cases s <;> rfl

theorem agedChars_append (s : SubSt) (a b : Str) : agedChars s (a ++ b) = agedChars s a ++ agedChars (ageBy s a) b := by
  induction a generalizing s with
  | nil => rfl
  | cons c a ih => simp [agedChars, ageBy, ih]

theorem ageBy_append (s : SubSt) (a b : Str) : ageBy s (a ++ b) = ageBy (ageBy s a) b := by
  induction a generalizing s with
  | nil => rfl
  | cons c a ih => simp [ageBy, ih]

theorem agedChars_aged (s : SubSt) (h : s.age = s) (cs : Str) : agedChars s cs = cs.map (fun c => (c, s)) := by
  induction cs with
  | nil => rfl
  | cons c cs ih => rw [agedChars, h, ih]; rfl

theorem ageBy_aged (s : SubSt) (h : s.age = s) (cs : Str) : ageBy s cs = s := by
  induction cs with
  | nil => rfl
  | cons c cs ih => rw [ageBy, h, ih]

theorem ageBy_none (cs : Str) : ageBy none cs = none := ageBy_aged none rfl cs

theorem agedChars_cons (s : SubSt) (c : Char) (cs : Str) : agedChars s (c :: cs) = (c, s) :: cs.map (fun c => (c, s.age)) := by
  rw [agedChars, agedChars_aged _ (age_age s)]

theorem ageBy_ne_nil (s : SubSt) (cs : Str) (h : cs ≠ []) : ageBy s cs = s.age := by
  cases cs with
  | nil => exact absurd rfl h
  | cons c cs => rw [ageBy, ageBy_aged _ (age_age s)]

/-- A character with its sub tag and whether it is the first one of the element. -/
def subMark (x : Char × SubSt) : Char × Option Str × Bool := (x.1, x.2.map (fun p => p.1), x.2.any (fun p => p.2))

/-- The open elements, the depth of the outermost tagged one and the current sub tag. -/
structure LSt where
  path : List Str
  main : Option Nat
  sub : SubSt

/-- An element starts; `tagged` tells whether it is a tagged one. -/
def LSt.enter (st : LSt) (c : Str) (tagged : Bool) : LSt :=
  if tagged then
    match st.main with
    | none => ⟨st.path ++ [c], some (st.path.length + 1), st.sub⟩
    | some d => ⟨st.path ++ [c], some d, some (joinWith c!"/" (st.path ++ [c]), true)⟩
  else ⟨st.path ++ [c], st.main, st.sub⟩

/-- An element ends. -/
def LSt.exit (st : LSt) : LSt :=
  ⟨st.path.dropLast, if st.main = some st.path.length then none else st.main,
    if st.main.any (fun d => decide (d < st.path.length)) then none else st.sub⟩

def taggedAt (cc : CharClass) (rp : List Str) (path : List Str) (r : List TEv) : Bool :=
  directHere cc 0 r || rp.contains (joinWith c!"/" path)

/-- The characters with their sub tags. -/
def scanSubs (cc : CharClass) (rp : List Str) : LSt → List TEv → List (Char × SubSt)
  | _, [] => []
  | st, .ch c :: r => (c, st.sub) :: scanSubs cc rp ⟨st.path, st.main, st.sub.age⟩ r
  | st, .start c :: r => scanSubs cc rp (st.enter c (taggedAt cc rp (st.path ++ [c]) r)) r
  | st, .stop :: r => scanSubs cc rp st.exit r

theorem scanSubs_chEvs (cc : CharClass) (rp : List Str) (path : List Str) (main : Option Nat) (sub : SubSt) (s : Str) (r : List TEv) :
    scanSubs cc rp ⟨path, main, sub⟩ (chEvs s ++ r) = agedChars sub s ++ scanSubs cc rp ⟨path, main, ageBy sub s⟩ r := by
  induction s generalizing sub with
  | nil => rfl
  | cons c s ih =>
    show scanSubs cc rp ⟨path, main, sub⟩ (.ch c :: (chEvs s ++ r)) = _
    rw [scanSubs, ih]; rfl

def subScan (sub : SubSt) : List SubEvent → List (Char × SubSt)
  | [] => []
  | .opens p :: r => subScan (some (p, true)) r
  | .closes :: r => subScan none r
  | .text s :: r => agedChars sub s ++ subScan (ageBy sub s) r

def subEnd (sub : SubSt) : List SubEvent → SubSt
  | [] => sub
  | .opens p :: r => subEnd (some (p, true)) r
  | .closes :: r => subEnd none r
  | .text s :: r => subEnd (ageBy sub s) r

theorem subScan_append (sub : SubSt) (a b : List SubEvent) :
    subScan sub (a ++ b) = subScan sub a ++ subScan (subEnd sub a) b := by
  induction a generalizing sub with
  | nil => rfl
  | cons e a ih => cases e <;> simp [subScan, subEnd, ih]

theorem subEnd_append (sub : SubSt) (a b : List SubEvent) : subEnd sub (a ++ b) = subEnd (subEnd sub a) b := by
  induction a generalizing sub with
  | nil => rfl
  | cons e a ih => cases e <;> simp [subEnd, ih]

theorem segStream_aged (v : Option Str) (nodes : List Str) :
    segStream (v, nodes) = (agedChars (freshSub v) nodes.flatten).map subMark := by
  unfold segStream
  simp only
  generalize nodes.flatten = cs
  cases cs with
  | nil => rfl
  | cons c cs =>
    rw [agedChars_cons]
    cases v <;> simp [flagFirst, freshSub, SubSt.age, subMark]

theorem subGroups_chars (sub : Option Str) (texts : List Str) (evs : List SubEvent) :
    (subGroups sub texts evs).flatMap segStream =
      (agedChars (freshSub sub) texts.flatten ++ subScan (ageBy (freshSub sub) texts.flatten) evs).map subMark := by
  induction evs generalizing sub texts with
  | nil => simp [subGroups, subScan, segStream_aged]
  | cons e evs ih =>
    cases e <;> simp [subGroups, subScan, segStream_aged, ih, agedChars_append, ageBy_append, agedChars, ageBy, freshSub]

mutual
theorem scan_subElem (cc : CharClass) (rp : List Str) (t : Str) (a : Dict Str) (x : Option Str) (cs : List Elem) (tl : Option Str)
    (path : List Str) (d : Nat) (hd : d ≤ path.length) (sub : SubSt) (rest : List TEv) :
    scanSubs cc rp ⟨path, some d, sub⟩ (.start (component t a) :: (elemTrace (.mk t a x cs tl) ++ .stop :: rest)) =
      subScan sub (subEvents cc rp (path ++ [component t a]) (.mk t a x cs tl)) ++
        scanSubs cc rp ⟨path, some d, none⟩ rest := by
  rw [scanSubs]
  have htag : taggedAt cc rp (path ++ [component t a]) (elemTrace (.mk t a x cs tl) ++ .stop :: rest) =
      isTagged cc rp (path ++ [component t a]) x cs := by
    unfold taggedAt isTagged
    rw [directHere_content]
  simp only
  rw [htag]
  have hen : LSt.enter ⟨path, some d, sub⟩ (component t a) (isTagged cc rp (path ++ [component t a]) x cs) =
      ⟨path ++ [component t a], some d, if isTagged cc rp (path ++ [component t a]) x cs then
        some (joinWith c!"/" (path ++ [component t a]), true) else sub⟩ := by
    unfold LSt.enter
    split
    · rfl
    · rfl
  rw [hen]
  generalize hS : (if isTagged cc rp (path ++ [component t a]) x cs then
        some (joinWith c!"/" (path ++ [component t a]), true) else sub) = S
  have hop : subScan sub (subEvents cc rp (path ++ [component t a]) (.mk t a x cs tl)) =
      subScan S (.text (orEmpty x) :: subEventsList cc rp (path ++ [component t a]) cs ++ [.closes]) := by
    rw [subEvents, ← hS]
    split <;> simp [subScan]
  rw [hop, elemTrace, List.append_assoc, scanSubs_chEvs,
    scan_subList cc rp cs (path ++ [component t a]) d (by simp; omega) (ageBy S (orEmpty x)), scanSubs]
  have hex : LSt.exit ⟨path ++ [component t a], some d, subEnd (ageBy S (orEmpty x)) (subEventsList cc rp (path ++ [component t a]) cs)⟩ =
      ⟨path, some d, none⟩ := by
    unfold LSt.exit
    simp only [List.dropLast_concat, List.length_append, List.length_singleton, Option.any_some]
    rw [if_neg (by intro h; cases h; omega), if_pos (by simp; omega)]
  rw [hex]
  simp only [List.cons_append, subScan, subScan_append, List.append_nil, List.append_assoc]
theorem scan_subList (cc : CharClass) (rp : List Str) (es : List Elem) (path : List Str) (d : Nat) (hd : d ≤ path.length)
    (sub : SubSt) (rest : List TEv) :
    scanSubs cc rp ⟨path, some d, sub⟩ (listTrace es ++ rest) = subScan sub (subEventsList cc rp path es) ++
      scanSubs cc rp ⟨path, some d, subEnd sub (subEventsList cc rp path es)⟩ rest := by
  match es with
  | [] => simp [listTrace, subEventsList, subScan, subEnd]
  | .mk t a x cs tl :: es =>
    have hend : subEnd sub (subEvents cc rp (path ++ [component t a]) (.mk t a x cs tl)) = none := by
      rw [subEvents, subEnd_append]
      rfl
    rw [listTrace, List.cons_append, List.append_assoc, List.cons_append,
      scan_subElem cc rp t a x cs tl path d hd sub, List.append_assoc, scanSubs_chEvs, ageBy_none, scan_subList cc rp es path d hd none rest]
    simp only [subEventsList, subScan_append, subEnd_append, hend, subScan, subEnd, ageBy_none, List.append_assoc]
end

mutual
theorem scan_docElem (cc : CharClass) (rp : List Str) (t : Str) (a : Dict Str) (x : Option Str) (cs : List Elem) (tl : Option Str)
    (path : List Str) (sub : SubSt) (rest : List TEv) :
    scanSubs cc rp ⟨path, none, sub⟩ (.start (component t a) :: (elemTrace (.mk t a x cs tl) ++ .stop :: rest)) =
      subScan sub (docEvents cc rp (path ++ [component t a]) (.mk t a x cs tl)) ++
        scanSubs cc rp ⟨path, none, subEnd sub (docEvents cc rp (path ++ [component t a]) (.mk t a x cs tl))⟩ rest := by
  rw [scanSubs]
  have htag : taggedAt cc rp (path ++ [component t a]) (elemTrace (.mk t a x cs tl) ++ .stop :: rest) =
      isTagged cc rp (path ++ [component t a]) x cs := by
    unfold taggedAt isTagged
    rw [directHere_content]
  simp only
  rw [htag, docEvents, elemTrace, List.append_assoc]
  rcases Bool.eq_false_or_eq_true (isTagged cc rp (path ++ [component t a]) x cs) with h | h
  · rw [if_pos ⟨by simp, h⟩, h, scanSubs_chEvs]
    have hen : LSt.enter ⟨path, none, sub⟩ (component t a) true = ⟨path ++ [component t a], some (path.length + 1), sub⟩ := rfl
    rw [hen, scan_subList cc rp cs (path ++ [component t a]) (path.length + 1) (by simp) (ageBy sub (orEmpty x)), scanSubs]
    have hex : ∀ s, LSt.exit ⟨path ++ [component t a], some (path.length + 1), s⟩ = ⟨path, none, s⟩ := by
      intro s
      unfold LSt.exit
      simp
    rw [hex]
    simp only [subScan, subEnd, List.append_assoc]
  · rw [if_neg (by simp [h]), h, scanSubs_chEvs]
    have hen : LSt.enter ⟨path, none, sub⟩ (component t a) false = ⟨path ++ [component t a], none, sub⟩ := rfl
    rw [hen, scan_docList cc rp cs (path ++ [component t a]) (ageBy sub (orEmpty x)), scanSubs]
    have hex : ∀ s, LSt.exit ⟨path ++ [component t a], none, s⟩ = ⟨path, none, s⟩ := by
      intro s
      unfold LSt.exit
      simp
    rw [hex]
    simp only [subScan, subEnd, List.append_assoc]
theorem scan_docList (cc : CharClass) (rp : List Str) (es : List Elem) (path : List Str) (sub : SubSt) (rest : List TEv) :
    scanSubs cc rp ⟨path, none, sub⟩ (listTrace es ++ rest) = subScan sub (docEventsList cc rp path es) ++
      scanSubs cc rp ⟨path, none, subEnd sub (docEventsList cc rp path es)⟩ rest := by
  match es with
  | [] => simp [listTrace, docEventsList, subScan, subEnd]
  | .mk t a x cs tl :: es =>
    rw [listTrace, List.cons_append, List.append_assoc, List.cons_append,
      scan_docElem cc rp t a x cs tl path sub, List.append_assoc, scanSubs_chEvs, scan_docList cc rp es path _ rest]
    simp only [docEventsList, subScan_append, subEnd_append, subScan, subEnd, List.append_assoc]
end

/-- The characters of the loaded tokens with their sub tags. -/
theorem extract_subs (cc : CharClass) (rp : List Str) (f : Frame) (lines : List (List Tok))
    (hn : allBelow (fun tag _ => tag ≠ []) f.close) (h : extractContainers cc rp [f.close] = .ok lines) :
    viewStream (lines.flatten.map (fun t => (t.text, t.attrib.get? c!"level2_tag"))) =
      (scanSubs cc rp ⟨[], none, none⟩ (elemTrace f.close)).map subMark := by
  rw [Props.C59_sub_tags cc rp [f.close] (fun e he => by rw [List.mem_singleton.1 he]; exact hn) lines h, viewStream_flatMap]
  simp only [viewStream_segment]
  rw [subGroups_chars]
  have h1 := scan_docList cc rp f.children [] none []
  simp only [List.append_nil] at h1
  have e1 : scanSubs cc rp ⟨[], none, none⟩ (elemTrace f.close) = agedChars none (orEmpty f.text) ++
      subScan none (docEventsList cc rp [] f.children) := by
    show scanSubs cc rp _ (chEvs (orEmpty f.text) ++ listTrace f.children) = _
    rw [scanSubs_chEvs, ageBy_none, h1]
    simp [scanSubs]
  rw [e1]
  simp [Frame.close, docEvents, subScan, subScan_append, Elem.tail, orEmpty, freshSub, agedChars, ageBy_none]

end Verif
