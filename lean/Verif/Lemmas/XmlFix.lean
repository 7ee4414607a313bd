import Verif.Spec.XmlFix

namespace Verif

open Spec

/-! ### Escaping -/

theorem replaceChar_append (c : Char) (new s t : Str) :
    replaceChar c new (s ++ t) = replaceChar c new s ++ replaceChar c new t := by
  simp [replaceChar]

theorem saxEscape_append (s t : Str) : saxEscape (s ++ t) = saxEscape s ++ saxEscape t := by
  simp [saxEscape, replaceChar_append]

theorem saxEscape_cons (c : Char) (s : Str) : saxEscape (c :: s) = saxEscape [c] ++ saxEscape s :=
  saxEscape_append [c] s

theorem saxEscape_single (c : Char) :
    saxEscape [c] = if c = '&' then c!"&amp;" else if c = '<' then c!"&lt;" else
      if c = '>' then c!"&gt;" else [c] := by
  by_cases h1 : c = '&'
  · subst h1; decide
  · by_cases h2 : c = '<'
    · subst h2; decide
    · by_cases h3 : c = '>'
      · subst h3; decide
      · simp [saxEscape, replaceChar, h1, h2, h3]

theorem decodes_saxEscape (s : Str) : Decodes (saxEscape s) s := by
  induction s with
  | nil => exact .nil
  | cons c s ih =>
    rw [saxEscape_cons, saxEscape_single]
    by_cases h1 : c = '&'
    · subst h1; exact .amp ih
    · rw [if_neg h1]
      by_cases h2 : c = '<'
      · subst h2; exact .lt ih
      · rw [if_neg h2]
        by_cases h3 : c = '>'
        · subst h3; exact .gt ih
        · rw [if_neg h3]; exact .char h1 h2 ih

/-- The value of `d` in `quoteattr`. -/
def saxAttr (s : Str) : Str :=
  replaceChar '\t' c!"&#9;" (replaceChar '\r' c!"&#13;" (replaceChar '\n' c!"&#10;" (saxEscape s)))

theorem saxAttr_cons (c : Char) (s : Str) : saxAttr (c :: s) = saxAttr [c] ++ saxAttr s := by
  simp only [saxAttr]
  rw [saxEscape_cons]
  simp only [replaceChar_append]

theorem saxAttr_single (c : Char) :
    saxAttr [c] = if c = '&' then c!"&amp;" else if c = '<' then c!"&lt;" else
      if c = '>' then c!"&gt;" else if c = '\n' then c!"&#10;" else if c = '\r' then c!"&#13;" else
      if c = '\t' then c!"&#9;" else [c] := by
  by_cases h1 : c = '&'
  · subst h1; decide
  · by_cases h2 : c = '<'
    · subst h2; decide
    · by_cases h3 : c = '>'
      · subst h3; decide
      · by_cases h4 : c = '\n'
        · subst h4; decide
        · by_cases h5 : c = '\r'
          · subst h5; decide
          · by_cases h6 : c = '\t'
            · subst h6; decide
            · simp [saxAttr, saxEscape_single, replaceChar, h1, h2, h3, h4, h5, h6]

theorem decodes_saxAttr (s : Str) : Decodes (saxAttr s) s ∧
    ∀ c ∈ saxAttr s, c ≠ '\n' ∧ c ≠ '\r' ∧ c ≠ '\t' := by
  induction s with
  | nil => exact ⟨.nil, by intro c hc; simp [saxAttr, saxEscape, replaceChar] at hc⟩
  | cons c s ih =>
    obtain ⟨ih, ih'⟩ := ih
    rw [saxAttr_cons, saxAttr_single]
    have hm : ∀ (l : Str), (∀ c ∈ l, c ≠ '\n' ∧ c ≠ '\r' ∧ c ≠ '\t') →
        ∀ c ∈ l ++ saxAttr s, c ≠ '\n' ∧ c ≠ '\r' ∧ c ≠ '\t' := by
      intro l hl c hc
      rcases List.mem_append.mp hc with h | h
      · exact hl c h
      · exact ih' c h
    by_cases h1 : c = '&'
    · subst h1; exact ⟨.amp ih, hm _ (by decide)⟩
    · rw [if_neg h1]
      by_cases h2 : c = '<'
      · subst h2; exact ⟨.lt ih, hm _ (by decide)⟩
      · rw [if_neg h2]
        by_cases h3 : c = '>'
        · subst h3; exact ⟨.gt ih, hm _ (by decide)⟩
        · rw [if_neg h3]
          by_cases h4 : c = '\n'
          · subst h4; exact ⟨.lf ih, hm _ (by decide)⟩
          · rw [if_neg h4]
            by_cases h5 : c = '\r'
            · subst h5; exact ⟨.cr ih, hm _ (by decide)⟩
            · rw [if_neg h5]
              by_cases h6 : c = '\t'
              · subst h6; exact ⟨.tab ih, hm _ (by decide)⟩
              · rw [if_neg h6]
                exact ⟨.char h1 h2 ih, hm _ (by
                  intro d hd
                  rw [List.mem_singleton] at hd
                  subst hd
                  exact ⟨h4, h5, h6⟩)⟩

theorem decodes_replace_quot {r s : Str} (h : Decodes r s) :
    Decodes (replaceChar '"' c!"&quot;" r) s := by
  induction h with
  | nil => exact .nil
  | @char c r s h1 h2 h ih =>
    show Decodes (replaceChar '"' c!"&quot;" ([c] ++ r)) (c :: s)
    rw [replaceChar_append]
    by_cases hc : c = '"'
    · subst hc; exact .quot ih
    · have : replaceChar '"' c!"&quot;" [c] = [c] := by simp [replaceChar, hc]
      rw [this]; exact .char h1 h2 ih
  | amp h ih => rw [replaceChar_append]; exact .amp ih
  | lt h ih => rw [replaceChar_append]; exact .lt ih
  | gt h ih => rw [replaceChar_append]; exact .gt ih
  | quot h ih => rw [replaceChar_append]; exact .quot ih
  | tab h ih => rw [replaceChar_append]; exact .tab ih
  | lf h ih => rw [replaceChar_append]; exact .lf ih
  | cr h ih => rw [replaceChar_append]; exact .cr ih

theorem mem_replaceChar {c : Char} {new s : Str} {x : Char} (h : x ∈ replaceChar c new s) :
    x ∈ new ∨ (x ∈ s ∧ x ≠ c) := by
  simp only [replaceChar, List.mem_flatMap] at h
  obtain ⟨y, hy, hx⟩ := h
  by_cases hyc : y = c
  · rw [if_pos hyc] at hx; exact .inl hx
  · rw [if_neg hyc, List.mem_singleton] at hx
    subst hx; exact .inr ⟨hy, hyc⟩

theorem quotedAs_saxQuoteattr (s : Str) : QuotedAs (saxQuoteattr s) s := by
  obtain ⟨h, hn⟩ := decodes_saxAttr s
  show QuotedAs (if '"' ∈ saxAttr s then _ else _) s
  show QuotedAs (if '"' ∈ saxAttr s then
    (if '\'' ∈ saxAttr s then '"' :: replaceChar '"' c!"&quot;" (saxAttr s) ++ ['"']
      else '\'' :: saxAttr s ++ ['\'']) else '"' :: saxAttr s ++ ['"']) s
  by_cases h1 : '"' ∈ saxAttr s
  · rw [if_pos h1]
    by_cases h2 : '\'' ∈ saxAttr s
    · rw [if_pos h2]
      refine .mk (.inl rfl) ?_ (decodes_replace_quot h)
      intro c hc
      rcases mem_replaceChar hc with hc | ⟨hc, hq⟩
      · exact (by decide : ∀ c ∈ c!"&quot;", c ≠ '"' ∧ c ≠ '\n' ∧ c ≠ '\r' ∧ c ≠ '\t') c hc
      · exact ⟨hq, hn c hc⟩
    · rw [if_neg h2]
      refine .mk (.inr rfl) ?_ h
      intro c hc
      exact ⟨fun he => h2 (he ▸ hc), hn c hc⟩
  · rw [if_neg h1]
    refine .mk (.inl rfl) ?_ h
    intro c hc
    exact ⟨fun he => h1 (he ▸ hc), hn c hc⟩

theorem fixAttrs_ok {as : List (Str × Option Str)} {r : Str} (h : fixAttrs as = .ok r) :
    XmlAttrs r (valuedAttrs as) := by
  induction as generalizing r with
  | nil => cases h; exact .nil
  | cons a as ih =>
    obtain ⟨k, v⟩ := a
    cases v with
    | none => simp [fixAttrs] at h
    | some v =>
      cases hr : fixAttrs as with
      | error e => simp [fixAttrs, hr] at h
      | ok r' =>
        simp only [fixAttrs, hr] at h
        cases h
        exact .cons (quotedAs_saxQuoteattr v) (ih hr)

theorem fixAttrs_total (as : List (Str × Option Str)) :
    (∃ r, fixAttrs as = .ok r) ↔ ∀ p ∈ as, p.2 ≠ none := by
  induction as with
  | nil => exact ⟨fun _ p hp => absurd hp List.not_mem_nil, fun _ => ⟨[], rfl⟩⟩
  | cons a as ih =>
    obtain ⟨k, v⟩ := a
    cases v with
    | none =>
      constructor
      · rintro ⟨r, hr⟩; simp [fixAttrs] at hr
      · intro h; exact absurd rfl (h (k, none) (List.mem_cons_self))
    | some v =>
      constructor
      · rintro ⟨r, hr⟩ p hp
        rcases List.mem_cons.mp hp with rfl | hp
        · simp
        · refine (ih.mp ?_) p hp
          cases hr' : fixAttrs as with
          | error e => simp [fixAttrs, hr'] at hr
          | ok r' => exact ⟨r', rfl⟩
      · intro h
        obtain ⟨r, hr⟩ := ih.mpr (fun p hp => h p (List.mem_cons_of_mem _ hp))
        exact ⟨' ' :: k ++ '=' :: saxQuoteattr v ++ r, by simp only [fixAttrs, hr]⟩

/-! ### Open elements -/

theorem xmlContent_append {r r' : Str} {ns ns' : List XmlNode} (h : XmlContent r ns) (h' : XmlContent r' ns') :
    XmlContent (r ++ r') (ns ++ ns') := by
  induction h with
  | nil => exact h'
  | text hd _ ih => rw [List.append_assoc]; exact .text hd ih
  | elem ha hc _ _ ih => rw [List.append_assoc]; exact .elem ha hc ih

theorem contentMarks_append (ns ns' : List XmlNode) :
    contentMarks (ns ++ ns') = contentMarks ns ++ contentMarks ns' := by
  induction ns with
  | nil => simp [contentMarks]
  | cons n ns ih => simp [contentMarks, ih]

/-- Completed content of the open elements, innermost first, with tag and attributes. -/
abbrev XmlFrames := List (Str × List (Str × Str) × List XmlNode)

/-- The buffer consists of the completed top level nodes `base` and, for each open element, its
start tag and its completed content. -/
def FixInv : Str → List XmlNode → XmlFrames → Prop
  | buf, base, [] => XmlContent buf base
  | buf, base, (t, as, cs) :: fs =>
    ∃ b ra r, buf = b ++ ('<' :: t ++ ra ++ ['>']) ++ r ∧ FixInv b base fs ∧ XmlAttrs ra as ∧ XmlContent r cs

/-- Start tags and characters so far. -/
def frameMarks (base : List XmlNode) : XmlFrames → List XmlMark
  | [] => contentMarks base
  | (t, as, cs) :: fs => frameMarks base fs ++ .open t as :: contentMarks cs

/-- Adding nodes to the innermost open element. -/
def addNodes (ns : List XmlNode) : List XmlNode × XmlFrames → List XmlNode × XmlFrames
  | (base, []) => (base ++ ns, [])
  | (base, (t, as, cs) :: fs) => (base, (t, as, cs ++ ns) :: fs)

/-- The state of the parser is described by completed nodes and open elements. -/
def FixRep (st : FixState) (z : List XmlNode × XmlFrames) : Prop :=
  FixInv st.buffer z.1 z.2 ∧ st.stack = z.2.map (·.1)

theorem fixInv_add {buf r : Str} {z : List XmlNode × XmlFrames} {ns : List XmlNode}
    (h : FixInv buf z.1 z.2) (hr : XmlContent r ns) :
    FixInv (buf ++ r) (addNodes ns z).1 (addNodes ns z).2 := by
  obtain ⟨base, fs⟩ := z
  cases fs with
  | nil => exact xmlContent_append h hr
  | cons f fs =>
    obtain ⟨t, as, cs⟩ := f
    obtain ⟨b, ra, r', hb, hi, ha, hc⟩ := h
    exact ⟨b, ra, r' ++ r, by rw [hb, List.append_assoc], hi, ha, xmlContent_append hc hr⟩

theorem frameMarks_add (ns : List XmlNode) (z : List XmlNode × XmlFrames) :
    frameMarks (addNodes ns z).1 (addNodes ns z).2 = frameMarks z.1 z.2 ++ contentMarks ns := by
  obtain ⟨base, fs⟩ := z
  cases fs with
  | nil => simp [addNodes, frameMarks, contentMarks_append]
  | cons f fs => simp [addNodes, frameMarks, contentMarks_append]

theorem addNodes_frames (ns : List XmlNode) (z : List XmlNode × XmlFrames) :
    (addNodes ns z).2.map (·.1) = z.2.map (·.1) := by
  obtain ⟨base, fs⟩ := z
  cases fs with
  | nil => rfl
  | cons f fs => rfl

theorem addNodes_append (ns ns' : List XmlNode) (z : List XmlNode × XmlFrames) :
    addNodes ns' (addNodes ns z) = addNodes (ns ++ ns') z := by
  obtain ⟨base, fs⟩ := z
  cases fs with
  | nil => simp [addNodes]
  | cons f fs => simp [addNodes]

theorem addNodes_nil (z : List XmlNode × XmlFrames) : addNodes [] z = z := by
  obtain ⟨base, fs⟩ := z
  cases fs with
  | nil => simp [addNodes]
  | cons f fs => simp [addNodes]

/-- Closing the innermost open element. -/
def closeFrame : List XmlNode × XmlFrames → List XmlNode × XmlFrames
  | (base, []) => (base, [])
  | (base, (t, as, cs) :: fs) => addNodes [.elem t as cs] (base, fs)

theorem frameMarks_close (z : List XmlNode × XmlFrames) :
    frameMarks (closeFrame z).1 (closeFrame z).2 = frameMarks z.1 z.2 := by
  obtain ⟨base, fs⟩ := z
  cases fs with
  | nil => rfl
  | cons f fs =>
    obtain ⟨t, as, cs⟩ := f
    simp only [closeFrame]
    rw [frameMarks_add]
    simp [frameMarks, contentMarks, nodeMarks]

theorem fixRep_closeCurrent {st : FixState} {z : List XmlNode × XmlFrames} (h : FixRep st z) :
    FixRep (fixCloseCurrent st) (closeFrame z) := by
  obtain ⟨base, fs⟩ := z
  obtain ⟨hi, hs⟩ := h
  cases fs with
  | nil =>
    have : st.stack = [] := hs
    unfold fixCloseCurrent
    rw [this]
    exact ⟨hi, hs⟩
  | cons f fs =>
    obtain ⟨t, as, cs⟩ := f
    have hs' : st.stack = t :: fs.map (·.1) := hs
    unfold fixCloseCurrent
    rw [hs']
    obtain ⟨b, ra, r, hb, hi, ha, hc⟩ := hi
    refine ⟨?_, ?_⟩
    · show FixInv (st.buffer ++ _) _ _
      have := fixInv_add (z := (base, fs)) (ns := [.elem t as cs]) hi
        (XmlContent.elem (tag := t) ha hc XmlContent.nil)
      rw [hb]
      simpa [closeFrame] using this
    · exact (addNodes_frames _ (base, fs)).symm

theorem fixRep_closeUntil (tag : Str) (ts : List Str) {st : FixState} {z : List XmlNode × XmlFrames}
    (h : FixRep st z) : ∃ z', FixRep (fixCloseUntil tag ts st) z' ∧
      frameMarks z'.1 z'.2 = frameMarks z.1 z.2 := by
  induction ts generalizing st z with
  | nil => exact ⟨z, h, rfl⟩
  | cons t ts ih =>
    unfold fixCloseUntil
    by_cases ht : tag ≠ t
    · rw [if_pos ht]
      obtain ⟨z', h', hm⟩ := ih (fixRep_closeCurrent h)
      exact ⟨z', h', hm.trans (frameMarks_close z)⟩
    · rw [if_neg ht]; exact ⟨z, h, rfl⟩

theorem fixRep_end (tag : Str) {st : FixState} {z : List XmlNode × XmlFrames}
    (h : FixRep st z) : ∃ z', FixRep (fixEnd st tag) z' ∧ frameMarks z'.1 z'.2 = frameMarks z.1 z.2 := by
  unfold fixEnd
  cases hs : st.stack with
  | nil => exact ⟨z, h, rfl⟩
  | cons t ts =>
    simp only []
    by_cases h1 : tag = t
    · rw [if_pos h1]; exact ⟨_, fixRep_closeCurrent h, frameMarks_close z⟩
    · rw [if_neg h1]
      by_cases h2 : tag ∉ t :: ts
      · rw [if_pos h2]; exact ⟨_, fixRep_closeCurrent h, frameMarks_close z⟩
      · rw [if_neg h2]; exact fixRep_closeUntil tag _ h

theorem fixRep_start {tag : Str} {attrs : List (Str × Option Str)} {st st' : FixState}
    {z : List XmlNode × XmlFrames} (h : FixRep st z) (hst : fixStart st tag attrs = .ok st') :
    FixRep st' (z.1, (tag, valuedAttrs attrs, []) :: z.2) := by
  unfold fixStart at hst
  cases hr : fixAttrs attrs with
  | error e => simp [hr] at hst
  | ok r =>
    simp only [hr] at hst
    cases hst
    exact ⟨⟨st.buffer, r, [], by simp, h.1, fixAttrs_ok hr, .nil⟩, by simp [h.2]⟩

theorem fixRep_data {st : FixState} {z : List XmlNode × XmlFrames} (h : FixRep st z) (s : Str) :
    FixRep (fixData st s) (addNodes [.text s] z) := by
  refine ⟨fixInv_add h.1 ?_, ?_⟩
  · have := XmlContent.text (decodes_saxEscape s) XmlContent.nil
    rwa [List.append_nil] at this
  · rw [addNodes_frames]; exact h.2

theorem fixRep_feed {es : List HtmlEvent} {st st' : FixState} {z : List XmlNode × XmlFrames}
    (h : FixRep st z) (hst : fixFeed st es = .ok st') :
    ∃ z', FixRep st' z' ∧ frameMarks z'.1 z'.2 = frameMarks z.1 z.2 ++ eventMarks es := by
  induction es generalizing st z with
  | nil => cases hst; exact ⟨z, h, by simp [eventMarks]⟩
  | cons e es ih =>
    simp only [fixFeed] at hst
    cases e with
    | start t as =>
      simp only [fixEvent] at hst
      cases h1 : fixStart st t as with
      | error x => simp [h1] at hst
      | ok st1 =>
        simp only [h1] at hst
        obtain ⟨z', hz, hm⟩ := ih (fixRep_start h h1) hst
        exact ⟨z', hz, by rw [hm]; simp [frameMarks, contentMarks, eventMarks]⟩
    | startEnd t as =>
      simp only [fixEvent] at hst
      cases h1 : fixStart st t as with
      | error x => simp [h1] at hst
      | ok st1 =>
        simp only [h1] at hst
        obtain ⟨z1, hz1, hm1⟩ := fixRep_end t (fixRep_start h h1)
        obtain ⟨z', hz, hm⟩ := ih hz1 hst
        exact ⟨z', hz, by rw [hm, hm1]; simp [frameMarks, contentMarks, eventMarks]⟩
    | stop t =>
      simp only [fixEvent] at hst
      obtain ⟨z1, hz1, hm1⟩ := fixRep_end t h
      obtain ⟨z', hz, hm⟩ := ih hz1 hst
      exact ⟨z', hz, by rw [hm, hm1]; simp [eventMarks]⟩
    | data s =>
      simp only [fixEvent] at hst
      obtain ⟨z', hz, hm⟩ := ih (fixRep_data h s) hst
      exact ⟨z', hz, by rw [hm, frameMarks_add]; simp [eventMarks, contentMarks, nodeMarks]⟩

theorem fixRep_close {st : FixState} {z : List XmlNode × XmlFrames} (h : FixRep st z) :
    ∃ ns, XmlContent (fixClose st.stack st).buffer ns ∧ contentMarks ns = frameMarks z.1 z.2 := by
  generalize hs : st.stack = ts
  induction ts generalizing st z with
  | nil =>
    obtain ⟨base, fs⟩ := z
    cases fs with
    | nil => exact ⟨base, h.1, rfl⟩
    | cons f fs => have := h.2; rw [hs] at this; simp at this
  | cons t ts ih =>
    obtain ⟨ns, hn, hm⟩ := ih (fixRep_closeCurrent h) (by unfold fixCloseCurrent; rw [hs])
    exact ⟨ns, hn, hm.trans (frameMarks_close z)⟩

theorem fixRep_init : FixRep { buffer := [], stack := [] } ([], []) := ⟨XmlContent.nil, rfl⟩

/-! ### Failure -/

theorem fixEvent_total (st : FixState) (e : HtmlEvent) :
    (∃ st', fixEvent st e = .ok st') ↔ ∀ p ∈ eventAttrs e, p.2 ≠ none := by
  cases e with
  | start t as =>
    rw [show eventAttrs (.start t as) = as from rfl, ← fixAttrs_total]
    simp only [fixEvent, fixStart]
    cases fixAttrs as with
    | error x => simp
    | ok r => simp
  | startEnd t as =>
    rw [show eventAttrs (.startEnd t as) = as from rfl, ← fixAttrs_total]
    simp only [fixEvent, fixStart]
    cases fixAttrs as with
    | error x => simp
    | ok r => simp
  | stop t => simp [fixEvent, eventAttrs]
  | data s => simp [fixEvent, eventAttrs]

theorem fixFeed_total (st : FixState) (es : List HtmlEvent) :
    (∃ st', fixFeed st es = .ok st') ↔ ∀ e ∈ es, ∀ p ∈ eventAttrs e, p.2 ≠ none := by
  induction es generalizing st with
  | nil => simp [fixFeed]
  | cons e es ih =>
    simp only [fixFeed, List.forall_mem_cons]
    rw [← fixEvent_total st e]
    cases he : fixEvent st e with
    | error x => simp
    | ok st1 =>
      simp only []
      rw [ih]
      simp

theorem fixFeed_append (st : FixState) (es es' : List HtmlEvent) :
    fixFeed st (es ++ es') = match fixFeed st es with
      | .error x => .error x
      | .ok st' => fixFeed st' es' := by
  induction es generalizing st with
  | nil => rfl
  | cons e es ih =>
    simp only [List.cons_append, fixFeed]
    cases fixEvent st e with
    | error x => rfl
    | ok st1 => exact ih st1

theorem fixFeed_append_ok {st st' : FixState} {es : List HtmlEvent} (h : fixFeed st es = .ok st')
    (es' : List HtmlEvent) : fixFeed st (es ++ es') = fixFeed st' es' := by
  rw [fixFeed_append, h]

/-! ### Well formed input -/

theorem valuedAttrs_map (as : List (Str × Str)) :
    valuedAttrs (as.map (fun p => (p.1, some p.2))) = as := by
  induction as with
  | nil => rfl
  | cons a as ih =>
    unfold valuedAttrs at *
    simp only [List.map_cons, List.filterMap_cons, Option.map_some]
    rw [ih]

mutual
theorem fixFeed_node (n : XmlNode) {st : FixState} {z : List XmlNode × XmlFrames} (h : FixRep st z) :
    ∃ st', fixFeed st (nodeEvents n) = .ok st' ∧ FixRep st' (addNodes [n] z) := by
  match n with
  | .text s => exact ⟨fixData st s, rfl, fixRep_data h s⟩
  | .elem t as cs =>
    obtain ⟨r, hr⟩ := (fixAttrs_total (as.map (fun p => (p.1, some p.2)))).mpr (by
      intro p hp
      obtain ⟨q, _, rfl⟩ := List.mem_map.mp hp
      simp)
    have h1 : fixStart st t (as.map (fun p => (p.1, some p.2))) =
        .ok { buffer := st.buffer ++ ('<' :: t ++ r ++ ['>']), stack := t :: st.stack } := by
      unfold fixStart; rw [hr]
    have hz1 := fixRep_start h h1
    rw [valuedAttrs_map] at hz1
    obtain ⟨st2, h2, hz2⟩ := fixFeed_content cs hz1
    refine ⟨fixCloseCurrent st2, ?_, ?_⟩
    · show fixFeed st (.start t (as.map (fun p => (p.1, some p.2))) :: (contentEvents cs ++ [.stop t])) = _
      simp only [fixFeed, fixEvent]
      rw [h1]
      simp only []
      rw [fixFeed_append_ok h2]
      simp only [fixFeed, fixEvent]
      have hs : st2.stack = t :: z.2.map (·.1) := by rw [hz2.2]; rfl
      unfold fixEnd
      rw [hs]
      simp
    · have := fixRep_closeCurrent hz2
      have he : closeFrame (addNodes cs (z.1, (t, as, []) :: z.2)) = addNodes [.elem t as cs] z := by
        simp [addNodes, closeFrame]
      rwa [he] at this
theorem fixFeed_content (ns : List XmlNode) {st : FixState} {z : List XmlNode × XmlFrames} (h : FixRep st z) :
    ∃ st', fixFeed st (contentEvents ns) = .ok st' ∧ FixRep st' (addNodes ns z) := by
  match ns with
  | [] => exact ⟨st, rfl, by rw [addNodes_nil]; exact h⟩
  | n :: ns =>
    obtain ⟨st1, h1, hz1⟩ := fixFeed_node n h
    obtain ⟨st2, h2, hz2⟩ := fixFeed_content ns hz1
    refine ⟨st2, ?_, ?_⟩
    · show fixFeed st (nodeEvents n ++ contentEvents ns) = _
      rw [fixFeed_append_ok h1, h2]
    · rw [addNodes_append] at hz2; exact hz2
end

/-! ### End tags -/

theorem fixCloseUntil_eq (tag : Str) (us ts : List Str) (st : FixState) (hu : tag ∉ us)
    (hs : st.stack = us ++ tag :: ts) :
    fixFeed st (us.map .stop) = .ok (fixCloseUntil tag st.stack st) := by
  induction us generalizing st with
  | nil =>
    rw [hs]
    simp [fixFeed, fixCloseUntil]
  | cons u us ih =>
    have hne : tag ≠ u := fun he => hu (he ▸ List.mem_cons_self)
    have hu' : tag ∉ us := fun h => hu (List.mem_cons_of_mem _ h)
    have hs1 : (fixCloseCurrent st).stack = us ++ tag :: ts := by
      unfold fixCloseCurrent; rw [hs]; rfl
    have h1 : fixEnd st u = fixCloseCurrent st := by
      unfold fixEnd; rw [hs]; simp
    simp only [List.map_cons, fixFeed, fixEvent]
    rw [h1, ih (fixCloseCurrent st) hu' hs1, hs1, hs]
    show _ = Except.ok (fixCloseUntil tag (u :: (us ++ tag :: ts)) st)
    rw [show fixCloseUntil tag (u :: (us ++ tag :: ts)) st =
      fixCloseUntil tag (us ++ tag :: ts) (fixCloseCurrent st) by
        rw [fixCloseUntil]; exact if_pos hne]

theorem fixFeed_content_stack (ns : List XmlNode) (st : FixState) (z : List XmlNode × XmlFrames)
    (h : FixRep st z) : ∃ st', fixFeed st (contentEvents ns) = .ok st' ∧ st'.stack = st.stack ∧ ∃ z', FixRep st' z' := by
  obtain ⟨st', h', hz⟩ := fixFeed_content ns h
  exact ⟨st', h', by rw [hz.2, addNodes_frames, h.2], _, hz⟩

theorem fixStart_stack {st st' : FixState} {t : Str} {as : List (Str × Option Str)}
    (h : fixStart st t as = .ok st') : st'.stack = t :: st.stack := by
  unfold fixStart at h
  cases ha : fixAttrs as with
  | error x => simp [ha] at h
  | ok r => simp only [ha] at h; cases h; rfl

theorem fixFeed_opened_stack (us : List OpenedElem) (st st' : FixState) (z : List XmlNode × XmlFrames)
    (hz : FixRep st z) (h : fixFeed st (us.flatMap openedEvents) = .ok st') :
    st'.stack = (us.map (·.tag)).reverse ++ st.stack := by
  induction us generalizing st z with
  | nil => cases h; rfl
  | cons u us ih =>
    rw [List.flatMap_cons] at h
    rw [show openedEvents u = .start u.tag u.attrs :: contentEvents u.content from rfl] at h
    simp only [List.cons_append, fixFeed, fixEvent] at h
    cases hr : fixStart st u.tag u.attrs with
    | error x => simp [hr] at h
    | ok st1 =>
      simp only [hr] at h
      obtain ⟨st2, h2, hs2, z2, hz2⟩ := fixFeed_content_stack u.content st1 _ (fixRep_start hz hr)
      rw [fixFeed_append_ok h2] at h
      rw [ih st2 z2 hz2 h, hs2, fixStart_stack hr]
      simp

theorem fixCloseUntil_sub (tag : Str) (ts : List Str) (st : FixState) :
    ∀ t ∈ (fixCloseUntil tag ts st).stack, t ∈ st.stack := by
  induction ts generalizing st with
  | nil => exact fun t h => h
  | cons u us ih =>
    unfold fixCloseUntil
    by_cases h : tag ≠ u
    · rw [if_pos h]
      intro t ht
      have := ih _ t ht
      unfold fixCloseCurrent at this
      cases hs : st.stack with
      | nil => rw [hs] at this; simp only [hs] at this; exact this
      | cons a l => rw [hs] at this; exact List.mem_cons_of_mem _ this
    · rw [if_neg h]; exact fun t h => h

theorem fixCloseCurrent_sub (st : FixState) : ∀ t ∈ (fixCloseCurrent st).stack, t ∈ st.stack := by
  intro t ht
  unfold fixCloseCurrent at ht
  cases hs : st.stack with
  | nil => rw [hs] at ht; simp only [hs] at ht; exact ht
  | cons a l => rw [hs] at ht; exact List.mem_cons_of_mem _ ht

theorem fixEnd_sub (st : FixState) (tag : Str) : ∀ t ∈ (fixEnd st tag).stack, t ∈ st.stack := by
  intro t ht
  unfold fixEnd at ht
  split at ht
  · exact ht
  · split at ht
    · exact fixCloseCurrent_sub st t ht
    · split at ht
      · exact fixCloseCurrent_sub st t ht
      · exact fixCloseUntil_sub tag _ st t ht

/-- Open elements were started before. -/
theorem fixFeed_stack_started (es : List HtmlEvent) (st st' : FixState) (h : fixFeed st es = .ok st') :
    ∀ t ∈ st'.stack, t ∈ st.stack ∨ t ∈ startedTags es := by
  induction es generalizing st with
  | nil => cases h; exact fun t ht => .inl ht
  | cons e es ih =>
    simp only [fixFeed] at h
    cases he : fixEvent st e with
    | error x => simp [he] at h
    | ok st1 =>
      simp only [he] at h
      intro t ht
      rcases ih st1 h t ht with h1 | h1
      · cases e with
        | start u as =>
          rw [fixStart_stack he] at h1
          rcases List.mem_cons.mp h1 with rfl | h1
          · exact .inr (by simp [startedTags])
          · exact .inl h1
        | startEnd u as =>
          simp only [fixEvent] at he
          cases hs : fixStart st u as with
          | error x => simp [hs] at he
          | ok st2 =>
            simp only [hs] at he
            cases he
            have h2 := fixEnd_sub st2 u t h1
            rw [fixStart_stack hs] at h2
            rcases List.mem_cons.mp h2 with rfl | h2
            · exact .inr (by simp [startedTags])
            · exact .inl h2
        | stop u => cases he; exact .inl (fixEnd_sub st u t h1)
        | data s => cases he; exact .inl h1
      · right
        cases e <;> simp [startedTags, h1]

end Verif
