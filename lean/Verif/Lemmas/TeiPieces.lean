import Verif.Lemmas.TeiWrite

namespace Verif
open Spec

theorem strip_isEmpty_eq_blank (cc : CharClass) (t : Tok) :
    (t.strippedText cc).isEmpty = blank cc t := by
  rw [Bool.eq_iff_iff, List.isEmpty_iff, Tok.strippedText, strip_eq_nil_iff, blank, List.all_eq_true]

theorem pyOr_eq (a b : Option Str) : pyOr a b = firstNonEmpty a b := by
  rcases a with _ | _ | ⟨c, s⟩ <;> rfl

theorem writerTags_eq (t : Tok) : writerTags t = (fullTag t, fullSubTag t) := by
  unfold writerTags fullTag fullSubTag
  rw [pyOr_eq, pyOr_eq]; rfl

theorem splitTagPrefix_begin {t : Option Str} :
    (splitTagPrefix t).1 = some bPrefix ↔ ∃ v, t = some (c!"b-" ++ v) := by
  rcases splitTagPrefix_cases t with ⟨v, rfl, h⟩ | ⟨v, rfl, h⟩ | ⟨hb, hi, h⟩
  · rw [h]; simp [bPrefix]
  · rw [h]; simp [bPrefix, iPrefix]
  · rw [h]; simp only [bPrefix] at hb; simpa using hb

theorem effectiveSub_eq (cfg : WriteCfg) (t : Tok) :
    truthy (effectiveSub cfg (mainPath cfg.mapping t) (fullSubTag t)).1 = decide (hasSub cfg.mapping t) ∧
    (effectiveSub cfg (mainPath cfg.mapping t) (fullSubTag t)).2 =
      if hasSub cfg.mapping t then subPath cfg.mapping t else [] := by
  unfold effectiveSub
  simp only
  by_cases ht : truthy (fullSubTag t) = true
  · have hne : fullSubTag t ≠ none ∧ fullSubTag t ≠ some [] := by
      constructor <;> (intro h; rw [h] at ht; simp at ht)
    have hs : tagRequiredPath cfg.mapping (stripTagPrefix (fullSubTag t)) = subPath cfg.mapping t := rfl
    simp only [ht, if_true, Bool.true_and, hs]
    by_cases hp : mainPath cfg.mapping t <+: subPath cfg.mapping t
    · have h1 := (pathStartsWith_iff _ _).2 hp
      have h2 : hasSub cfg.mapping t := ⟨hne.1, hne.2, hp⟩
      simp [h1, h2, ht]
    · have h1 : pathStartsWith (mainPath cfg.mapping t) (subPath cfg.mapping t) = false := by
        rw [Bool.eq_false_iff]; intro h; exact hp ((pathStartsWith_iff _ _).1 h)
      have h2 : ¬ hasSub cfg.mapping t := fun h => hp h.2.2
      simp [h1, h2]
  · have h2 : ¬ hasSub cfg.mapping t := by
      intro h
      apply ht
      rcases hh : fullSubTag t with _ | _ | ⟨c, s⟩
      · exact absurd hh h.1
      · exact absurd hh h.2.1
      · rfl
    simp only [Bool.not_eq_true] at ht
    simp [ht, h2]

theorem tokenPath_eq (mapping : Dict Str) (t : Tok) :
    mainPath mapping t <+: tokenPath mapping t := by
  unfold tokenPath
  split
  · next h => exact h.2.2
  · exact List.prefix_refl _

/-- What one step of `writeToken` does for a text token, in terms of the specification. -/
theorem writeToken_text_step (cfg : WriteCfg) (st st' : WState) (t : Tok)
    (hb : blank cfg.cc t = false) (h : writeToken cfg st t = .ok st') :
    ∃ w1 w2 w3,
      ((isBegin t ∧ requirePath cfg.okNode (mainPath cfg.mapping t).dropLast st.w = .ok w1) ∨
       (¬ isBegin t ∧ stripTagPrefix (fullTag t) ∈ st.resets ∧ requirePath cfg.okNode [] st.w = .ok w1) ∨
       (¬ isBegin t ∧ stripTagPrefix (fullTag t) ∉ st.resets ∧ isSubBegin t ∧
          requirePathOrBelow cfg.okNode
            (if hasSub cfg.mapping t then subPath cfg.mapping t else []).dropLast st.w = .ok w1) ∨
       (¬ isBegin t ∧ stripTagPrefix (fullTag t) ∉ st.resets ∧ ¬ isSubBegin t ∧ w1 = st.w)) ∧
      flushPending cfg (tokenPath cfg.mapping t) st.pending w1 = .ok w2 ∧
      requirePath cfg.okNode (tokenPath cfg.mapping t) w2 = .ok w3 ∧
      st' = { w := w3.appendText t.text, pending := [], resets := [] } := by
  unfold writeToken at h
  rw [writerTags_eq] at h
  simp only at h
  rw [strip_isEmpty_eq_blank, hb] at h
  simp only [Bool.false_eq_true, if_false] at h
  have hm : tagRequiredPath cfg.mapping (splitTagPrefix (fullTag t)).2 = mainPath cfg.mapping t := rfl
  rw [hm] at h
  obtain ⟨e1, e2⟩ := effectiveSub_eq cfg t
  have hreq : (if truthy (effectiveSub cfg (mainPath cfg.mapping t) (fullSubTag t)).1 = true then
      (effectiveSub cfg (mainPath cfg.mapping t) (fullSubTag t)).2 else mainPath cfg.mapping t) =
      tokenPath cfg.mapping t := by
    rw [e1, e2]
    unfold tokenPath
    by_cases hs : hasSub cfg.mapping t <;> simp [hs]
  rw [hreq, e2] at h
  split at h
  · cases h
  · next w1 h1 =>
    split at h
    · cases h
    · next w2 h2 =>
      split at h
      · cases h
      · next w3 h3 =>
        cases h
        refine ⟨w1, w2, w3, ?_, h2, h3, rfl⟩
        have hv : (splitTagPrefix (fullTag t)).2 = stripTagPrefix (fullTag t) := rfl
        rw [hv] at h1
        split at h1
        · next hc => exact .inl ⟨splitTagPrefix_begin.1 hc, h1⟩
        · next hc =>
          have hc' : ¬ isBegin t := fun hh => hc (splitTagPrefix_begin.2 hh)
          split at h1
          · next hr => exact .inr (.inl ⟨hc', by simpa using hr, h1⟩)
          · next hr =>
            have hr' : stripTagPrefix (fullTag t) ∉ st.resets := by simpa using hr
            split at h1
            · next hs => exact .inr (.inr (.inl ⟨hc', hr', splitTagPrefix_begin.1 hs, h1⟩))
            · next hs =>
              cases h1
              exact .inr (.inr (.inr ⟨hc', hr', fun hh => hs (splitTagPrefix_begin.2 hh), rfl⟩))

theorem Agree.chain_eq {w w' : Writer} (h : Agree w) (h' : Agree w') (hp : w.path = w'.path) :
    w.chain = w'.chain := by
  unfold Agree at h h'
  rw [hp, h'] at h
  have key : ∀ a b : List (Str × Dict Str), a.map (Except.ok (ε := Err)) = b.map Except.ok → a = b := by
    intro a
    induction a with
    | nil => intro b hb; cases b <;> simp_all
    | cons x a ih =>
      intro b hb
      cases b with
      | nil => simp at hb
      | cons y b =>
        simp only [List.map_cons, List.cons.injEq, Except.ok.injEq] at hb
        rw [hb.1, ih b hb.2]
  exact (key _ _ h).symm

theorem flushPending_spec (cfg : WriteCfg) (req : List Str) (ss : List Str) (w w' : Writer)
    (h : flushPending cfg req ss w = .ok w') (ha : Agree w) (hlb : NoLb req) :
    Agree w' ∧ w'.items = w.items ++ ss.flatMap (textAt w'.addr w'.chain) ∧
      ((ss = [] ∧ w' = w) ∨ (w'.path = commonPath w.path req ∧
        w'.addr = w.addr.take (commonPath w.path req).length)) := by
  induction ss generalizing w with
  | nil => simp only [flushPending] at h; cases h; exact ⟨ha, by simp⟩
  | cons s ss ih =>
    simp only [flushPending] at h
    split at h
    · cases h
    · next w1 h1 =>
      obtain ⟨r1, r2, r3, r4⟩ := requirePathOrBelow_spec _ _ _ _ h1 ha hlb
      obtain ⟨p1, p2, p3, p4⟩ := writer_appendText_place w1 s
      have ha1 : Agree (w1.appendText s) := by
        unfold Agree; rw [p2, p3]; exact r3
      obtain ⟨i1, i2, i3⟩ := ih _ h ha1
      have hcc : commonPath (commonPath w.path req) req = commonPath w.path req :=
        commonPath_eq_left (commonPath_prefix_right _ _)
      have hlen : w1.addr.length = (commonPath w.path req).length := by
        have : w1.addr.length = w1.parents.length := addrOf_length _
        rw [this, ← r3.length, r2]
      have key : w'.path = commonPath w.path req ∧ w'.addr = w1.addr := by
        rcases i3 with ⟨rfl, rfl⟩ | ⟨h1, h2⟩
        · exact ⟨by rw [p3, r2], p1⟩
        · rw [p3, r2, hcc] at h1 h2
          rw [p1] at h2
          exact ⟨h1, by rw [h2, List.take_of_length_le (by omega)]⟩
      have hch : w1.chain = w'.chain := r3.chain_eq i1 (by rw [key.1, r2])
      refine ⟨i1, ?_, .inr ⟨key.1, by rw [key.2, r4]⟩⟩
      rw [i2, writer_items_appendText, r1, key.2, hch]
      simp

theorem addr_length {w : Writer} (h : Agree w) : w.addr.length = w.path.length := by
  rw [h.length]; exact addrOf_length _

/-! ### Places -/

/-- What is claimed about the place of a text token. -/
structure GoodText (cc : CharClass) (mapping : Dict Str) (before : List Piece) (p : Piece) (t : Tok) : Prop where
  chain : (tokenPath mapping t).map parseTagExpression = p.chain.map .ok
  len : p.addr.length = (tokenPath mapping t).length
  /-- a begin prefix (of the token or of white space before it) opens a new main element -/
  begins : isBegin t ∨ beginOnSpace cc before t → mainPath mapping t ≠ [] →
    freshElement before (p.addr.take (mainPath mapping t).length)
  /-- a begin prefix of the sub tag opens a new sub element -/
  subBegins : isSubBegin t → hasSub mapping t → subPath mapping t ≠ [] → freshElement before p.addr
  /-- a begin prefix of a sub tag which is ignored opens a new main element -/
  ignoredBegins : isSubBegin t → ¬ hasSub mapping t → mainPath mapping t ≠ [] →
    freshElement before (p.addr.take (mainPath mapping t).length)
  /-- otherwise the main element of the previous text is continued -/
  continues : ∀ q u mid, follows cc before q u mid → ¬ isBegin t → ¬ beginOnSpace cc before t →
    mainPath mapping t = mainPath mapping u →
    (isSubBegin t → hasSub mapping t ∧ (mainPath mapping t).length < (subPath mapping t).length) →
    p.addr.take (mainPath mapping t).length = q.addr.take (mainPath mapping t).length
  /-- and so is the innermost element -/
  subContinues : ∀ q u mid, follows cc before q u mid → ¬ isBegin t → ¬ beginOnSpace cc before t →
    ¬ isSubBegin t → tokenPath mapping t = tokenPath mapping u → p.addr = q.addr
  /-- white space in front of the token lies in one of the elements containing the token -/
  space : ∀ pre q mid b, before = pre ++ q :: mid → noText cc mid → q.tok = some b → blank cc b = true →
    q.addr <+: p.addr
  /-- it lies outside the main element, or in an element around the previous text -/
  spaceAbove : ∀ pre q mid b, before = pre ++ q :: mid → noText cc mid → q.tok = some b → blank cc b = true →
    mainPath mapping t ≠ [] →
    q.addr.length < (mainPath mapping t).length ∨ ∃ q' u mid', follows cc before q' u mid' ∧ q.addr <+: q'.addr

/-- All text tokens are placed well. -/
def GoodPieces (cc : CharClass) (mapping : Dict Str) (ps : List Piece) : Prop :=
  ∀ pre p post t, ps = pre ++ p :: post → p.tok = some t → blank cc t = false →
    GoodText cc mapping pre p t

/-- Tokens other than white space, and breaks. -/
def notBlank (cc : CharClass) : Option Tok → Bool
  | none => true
  | some t => !blank cc t

structure Rel (cfg : WriteCfg) (seen : List (Option Tok)) (st : WState) (ps : List Piece) (pend : List Tok) :
    Prop where
  agree : Agree st.w
  items : st.w.items = ps.flatMap Piece.items
  toks : ps.filterMap (·.tok) ++ pend = seen.filterMap id
  order : (ps.map (·.tok)).filter (notBlank cfg.cc) = seen.filter (notBlank cfg.cc)
  pendBlank : ∀ t ∈ pend, blank cfg.cc t = true
  pending : st.pending = pend.map (·.text)
  resets : ∀ v, v ∈ st.resets ↔ ∃ t ∈ pend, isBegin t ∧ stripTagPrefix (fullTag t) = v
  last : ∀ q u mid, follows cfg.cc ps q u mid → st.w.path = tokenPath cfg.mapping u ∧ q.addr = st.w.addr
  noSpace : ∀ pre q mid b, ps = pre ++ q :: mid → noText cfg.cc mid → q.tok = some b → blank cfg.cc b = false
  good : GoodPieces cfg.cc cfg.mapping ps
  start : noText cfg.cc ps → st.w.path = []

/-- The last text. -/
theorem last_text (cc : CharClass) (ps : List Piece) : noText cc ps ∨ ∃ q u mid, follows cc ps q u mid := by
  have key : noText cc ps ∨ ∃ pre q mid, ps = pre ++ q :: mid ∧ q.isText cc = true ∧ noText cc mid := by
    induction ps with
    | nil => exact .inl (by intro p hp; cases hp)
    | cons p ps ih =>
      rcases ih with ih | ⟨pre, q, mid, rfl, h1, h2⟩
      · cases hp : p.isText cc with
        | true => exact .inr ⟨[], p, ps, rfl, hp, ih⟩
        | false =>
          refine .inl ?_
          intro r hr
          rcases List.mem_cons.1 hr with rfl | hr
          · exact hp
          · exact ih r hr
      · exact .inr ⟨p :: pre, q, mid, rfl, h1, h2⟩
  rcases key with h | ⟨pre, q, mid, h1, h2, h3⟩
  · exact .inl h
  · refine .inr ?_
    unfold Piece.isText at h2
    cases hq : q.tok with
    | none => rw [hq] at h2; cases h2
    | some u =>
      rw [hq] at h2
      exact ⟨q, u, mid, ⟨pre, h1⟩, hq, by simpa using h2, h3⟩

theorem split_concat {α : Type} {l : List α} {x : α} {pre post : List α} {p : α}
    (h : l ++ [x] = pre ++ p :: post) :
    (post = [] ∧ p = x ∧ pre = l) ∨ ∃ post', post = post' ++ [x] ∧ l = pre ++ p :: post' := by
  rcases List.eq_nil_or_concat post with rfl | ⟨post', y, rfl⟩
  · have := List.append_inj' h rfl
    left
    exact ⟨rfl, by simpa using this.2.symm, this.1.symm⟩
  · right
    have h' : l ++ [x] = (pre ++ p :: post') ++ [y] := by simpa using h
    have := List.append_inj' h' rfl
    refine ⟨post', ?_, this.1⟩
    have h2 : x = y := by simpa using this.2
    rw [h2]; simp

theorem GoodPieces.append {cc : CharClass} {mapping : Dict Str} {ps : List Piece} {p : Piece}
    (h : GoodPieces cc mapping ps)
    (hp : ∀ t, p.tok = some t → blank cc t = false → GoodText cc mapping ps p t) :
    GoodPieces cc mapping (ps ++ [p]) := by
  intro pre q post t hs ht hb
  rcases split_concat hs with ⟨_, rfl, rfl⟩ | ⟨post', _, h2⟩
  · exact hp t ht hb
  · exact h pre q post' t h2 ht hb

theorem GoodPieces.append_blank {cc : CharClass} {mapping : Dict Str} {ps qs : List Piece}
    (h : GoodPieces cc mapping ps) (hq : ∀ q ∈ qs, q.isText cc = false) :
    GoodPieces cc mapping (ps ++ qs) := by
  induction qs generalizing ps with
  | nil => simpa using h
  | cons q qs ih =>
    have : ps ++ q :: qs = (ps ++ [q]) ++ qs := by simp
    rw [this]
    apply ih
    · apply h.append
      intro t ht hb
      have := hq q (by simp)
      simp [Piece.isText, ht, hb] at this
    · intro r hr; exact hq r (by simp [hr])

/-- Writing a break. -/
theorem Rel.break {cfg : WriteCfg} {seen : List (Option Tok)} {st : WState} {ps : List Piece} {pend : List Tok}
    (h : Rel cfg seen st ps pend) :
    Rel cfg (seen ++ [none]) { st with w := st.w.append lbElem } (ps ++ [⟨none, st.w.addr, st.w.chain⟩]) pend := by
  obtain ⟨p1, p2, p3, p4⟩ := writer_append_place st.w lbElem
  refine ⟨?_, ?_, ?_, ?_, h.pendBlank, h.pending, h.resets, ?_, ?_, ?_, ?_⟩
  · have ha := h.agree
    unfold Agree at ha ⊢
    simp only [p2, p3]; exact ha
  · show (st.w.append lbElem).items = _
    rw [writer_items_lb, h.items]; simp [Piece.items]
  · have := h.toks; simpa using this
  · have := h.order; simp [this]
  · rintro q u mid ⟨⟨pre, hs⟩, hq, hb, hm⟩
    show (st.w.append lbElem).path = _ ∧ _ = (st.w.append lbElem).addr
    rw [p1, p3]
    rcases split_concat hs with ⟨_, rfl, _⟩ | ⟨mid', rfl, h2⟩
    · cases hq
    · exact h.last q u mid' ⟨⟨pre, h2⟩, hq, hb, fun r hr => hm r (by simp [hr])⟩
  · intro pre q mid b hs hm hq
    rcases split_concat hs with ⟨_, rfl, _⟩ | ⟨mid', rfl, h2⟩
    · cases hq
    · exact h.noSpace pre q mid' b h2 (fun r hr => hm r (by simp [hr])) hq
  · exact h.good.append (fun t ht => by cases ht)
  · intro hn
    show (st.w.append lbElem).path = []
    rw [p3]
    exact h.start (fun p hp => hn p (by simp [hp]))

/-- A white space token. -/
theorem Rel.space {cfg : WriteCfg} {seen : List (Option Tok)} {st st' : WState} {ps : List Piece}
    {pend : List Tok} (h : Rel cfg seen st ps pend) (t : Tok) (hb : blank cfg.cc t = true)
    (hw : writeToken cfg st t = .ok st') : Rel cfg (seen ++ [some t]) st' ps (pend ++ [t]) := by
  unfold writeToken at hw
  rw [writerTags_eq] at hw
  simp only [strip_isEmpty_eq_blank, hb, if_true] at hw
  cases hw
  refine ⟨h.agree, h.items, ?_, ?_, ?_, ?_, ?_, h.last, h.noSpace, h.good, h.start⟩
  · have := h.toks; simp [← this]
  · have := h.order; simp [this, notBlank, hb]
  · intro u hu
    rcases List.mem_append.1 hu with hu | hu
    · exact h.pendBlank u hu
    · rw [List.mem_singleton.1 hu]; exact hb
  · simp [h.pending]
  · intro v
    have := h.resets v
    simp only
    have hv : (splitTagPrefix (fullTag t)).2 = stripTagPrefix (fullTag t) := rfl
    rw [hv]
    by_cases hc : (splitTagPrefix (fullTag t)).1 = some bPrefix
    · have hc' : isBegin t := splitTagPrefix_begin.1 hc
      simp only [hc, if_true, List.mem_cons, this, List.mem_append]
      constructor
      · rintro (rfl | ⟨u, hu, hh⟩)
        · exact ⟨t, .inr (by simp), hc', rfl⟩
        · exact ⟨u, .inl hu, hh⟩
      · rintro ⟨u, hu | hu, hh⟩
        · exact .inr ⟨u, hu, hh⟩
        · have : u = t := by simpa using hu
          subst this; exact .inl hh.2.symm
    · have hc' : ¬ isBegin t := fun hh => hc (splitTagPrefix_begin.2 hh)
      simp only [hc, if_false, this, List.mem_append]
      constructor
      · rintro ⟨u, hu, hh⟩; exact ⟨u, .inl hu, hh⟩
      · rintro ⟨u, hu | hu, hh⟩
        · exact ⟨u, hu, hh⟩
        · have : u = t := by simpa using hu
          subst this; exact absurd hh.1 hc'

/-- The pieces of flushed white space. -/
def spacePieces (addr : List Nat) (chain : List (Str × Dict Str)) (pend : List Tok) : List Piece :=
  pend.map (fun t => ⟨some t, addr, chain⟩)

theorem noText_append {cc : CharClass} {a b : List Piece} (ha : noText cc a) (hb : noText cc b) :
    noText cc (a ++ b) := by
  intro p hp
  rcases List.mem_append.1 hp with hp | hp
  · exact ha p hp
  · exact hb p hp

theorem spacePieces_noText {cc : CharClass} {addr : List Nat} {chain : List (Str × Dict Str)} {pend : List Tok}
    (h : ∀ t ∈ pend, blank cc t = true) : noText cc (spacePieces addr chain pend) := by
  intro p hp
  obtain ⟨t, ht, rfl⟩ := List.mem_map.1 hp
  simp [Piece.isText, h t ht]

theorem spacePieces_items (addr : List Nat) (chain : List (Str × Dict Str)) (pend : List Tok) :
    (spacePieces addr chain pend).flatMap Piece.items = (pend.map (·.text)).flatMap (textAt addr chain) := by
  induction pend with
  | nil => rfl
  | cons t pend ih =>
    simp only [spacePieces, List.map_cons, List.flatMap_cons] at ih ⊢
    rw [ih]; rfl

theorem spacePieces_toks (addr : List Nat) (chain : List (Str × Dict Str)) (pend : List Tok) :
    (spacePieces addr chain pend).filterMap (·.tok) = pend := by
  induction pend with
  | nil => rfl
  | cons t pend ih => simpa [spacePieces] using ih

/-- A split of an append lies in one of the two parts. -/
theorem split_append {α : Type} {a b pre mid : List α} {q : α} (h : a ++ b = pre ++ q :: mid) :
    (∃ pre', pre = a ++ pre' ∧ b = pre' ++ q :: mid) ∨ (∃ mid', mid = mid' ++ b ∧ a = pre ++ q :: mid') := by
  rcases List.append_eq_append_iff.1 h with ⟨c, h1, h2⟩ | ⟨c, h1, h2⟩
  · exact .inl ⟨c, h1, h2⟩
  · cases c with
    | nil => exact .inl ⟨[], by simpa using h1.symm, by simpa using h2.symm⟩
    | cons x c =>
      simp only [List.cons_append, List.cons.injEq] at h2
      exact .inr ⟨c, h2.2, by rw [h1, h2.1]⟩

/-- A text token. -/
theorem Rel.text {cfg : WriteCfg} {seen : List (Option Tok)} {st st' : WState} {ps : List Piece}
    {pend : List Tok} (h : Rel cfg seen st ps pend) (t : Tok) (hb : blank cfg.cc t = false)
    (hlb : NoLb (tokenPath cfg.mapping t))
    (hw : writeToken cfg st t = .ok st') : ∃ ps', Rel cfg (seen ++ [some t]) st' ps' [] := by
  obtain ⟨w1, w2, w3, hc, hf, hr, rfl⟩ := writeToken_text_step cfg st st' t hb hw
  have hmp := tokenPath_eq cfg.mapping t
  have hlbm : NoLb (mainPath cfg.mapping t) := hlb.sub hmp.subset
  have hsubNoLb : NoLb (if hasSub cfg.mapping t then subPath cfg.mapping t else []) := by
    split
    · next hs => unfold tokenPath at hlb; rwa [if_pos hs] at hlb
    · intro f hf; simp at hf
  -- first move
  have m1 : w1.items = st.w.items ∧ Agree w1 := by
    rcases hc with ⟨_, hc⟩ | ⟨_, _, hc⟩ | ⟨_, _, _, hc⟩ | ⟨_, _, _, rfl⟩
    · have := requirePath_spec _ _ _ _ hc h.agree (hlbm.sub (List.dropLast_subset _))
      exact ⟨this.1, this.2.2.1⟩
    · have := requirePath_spec _ _ _ _ hc h.agree (fun f hf => by simp at hf)
      exact ⟨this.1, this.2.2.1⟩
    · have := requirePathOrBelow_spec _ _ _ _ hc h.agree (hsubNoLb.sub (List.dropLast_subset _))
      exact ⟨this.1, this.2.2.1⟩
    · exact ⟨rfl, h.agree⟩
  obtain ⟨f1, f2, f3⟩ := flushPending_spec cfg _ _ _ _ hf m1.2 hlb
  obtain ⟨r1, r2, r3, r4, r5⟩ := requirePath_spec _ _ _ _ hr f1 hlb
  obtain ⟨q1, q2, q3, q4⟩ := writer_appendText_place w3 t.text
  have hw3len := addr_length r3
  rw [r2] at hw3len
  have hpb := h.pendBlank
  -- the common part after flushing
  have hcommon : commonPath w2.path (tokenPath cfg.mapping t) = commonPath w1.path (tokenPath cfg.mapping t) := by
    rcases f3 with ⟨_, rfl⟩ | ⟨f3, _⟩
    · rfl
    · rw [f3]; exact commonPath_eq_left (commonPath_prefix_right _ _)
  have htake : ∀ k, k ≤ (commonPath w1.path (tokenPath cfg.mapping t)).length →
      w3.addr.take k = w1.addr.take k := by
    intro k hk
    rw [r4 k (by rw [hcommon]; exact hk)]
    rcases f3 with ⟨_, rfl⟩ | ⟨_, f3⟩
    · rfl
    · rw [f3, List.take_take]; congr 1; omega
  let bef := ps ++ spacePieces w2.addr w2.chain pend
  have hbef : w2.items = bef.flatMap Piece.items := by
    rw [f2, m1.1, h.items, h.pending]
    simp only [bef, List.flatMap_append]
    congr 1
    exact (spacePieces_items _ _ _).symm
  have hfresh : ∀ k, w1.path.length < k → k ≤ (tokenPath cfg.mapping t).length →
      freshElement bef (w3.addr.take k) := by
    intro k hk1 hk2 it hit
    rw [← hbef] at hit
    refine r5 k ?_ hk2 it hit
    rw [hcommon]
    have := (commonPath_prefix_left w1.path (tokenPath cfg.mapping t)).length_le
    omega
  have hreset : stripTagPrefix (fullTag t) ∈ st.resets ↔ beginOnSpace cfg.cc bef t := by
    rw [h.resets]
    constructor
    · rintro ⟨b, hb1, hb2, hb3⟩
      obtain ⟨p1, p2, rfl⟩ := List.append_of_mem hb1
      refine ⟨ps ++ spacePieces w2.addr w2.chain p1, ⟨some b, w2.addr, w2.chain⟩,
        spacePieces w2.addr w2.chain p2, b, by simp [bef, spacePieces], ?_, rfl, hpb b hb1, hb2, hb3⟩
      exact spacePieces_noText (fun u hu => hpb u (by simp [hu]))
    · rintro ⟨pre, q, mid, b, hs, hm, hq, hbb, hb2, hb3⟩
      rcases split_append hs with ⟨pre', _, h2⟩ | ⟨mid', rfl, h2⟩
      · have hmem : q ∈ spacePieces w2.addr w2.chain pend := by rw [h2]; simp
        obtain ⟨u, hu, rfl⟩ := List.mem_map.1 hmem
        cases hq
        exact ⟨b, hu, hb2, hb3⟩
      · have := h.noSpace pre q mid' b h2 (fun r hr => hm r (by simp [hr])) hq
        rw [hbb] at this; cases this
  have hfollows : ∀ q u mid, follows cfg.cc bef q u mid →
      st.w.path = tokenPath cfg.mapping u ∧ q.addr = st.w.addr := by
    rintro q u mid ⟨⟨pre, hs⟩, hq, hub, hm⟩
    rcases split_append hs with ⟨pre', _, h2⟩ | ⟨mid', rfl, h2⟩
    · have hmem : q ∈ spacePieces w2.addr w2.chain pend := by rw [h2]; simp
      obtain ⟨v, hv, rfl⟩ := List.mem_map.1 hmem
      cases hq
      rw [hpb u hv] at hub; cases hub
    · exact h.last q u mid' ⟨⟨pre, h2⟩, hq, hub, fun r hr => hm r (by simp [hr])⟩
  have hgood : GoodText cfg.cc cfg.mapping bef ⟨some t, w3.addr, w3.chain⟩ t := by
    refine ⟨?_, hw3len, ?_, ?_, ?_, ?_, ?_, ?_, ?_⟩
    · show _ = w3.chain.map _
      rw [← r3, r2]
    · intro hbg hne
      have hpos : 0 < (mainPath cfg.mapping t).length := List.length_pos_iff.2 hne
      refine hfresh _ ?_ hmp.length_le
      rcases hc with ⟨_, hc⟩ | ⟨_, _, hc⟩ | ⟨hb1, hb2, _⟩ | ⟨hb1, hb2, _⟩
      · have := (requirePath_spec _ _ _ _ hc h.agree (hlbm.sub (List.dropLast_subset _))).2.1
        rw [this, List.length_dropLast]; omega
      · have := (requirePath_spec _ _ _ _ hc h.agree (fun f hf => by simp at hf)).2.1
        rw [this]; simpa using hpos
      · exact absurd hbg (by rw [← hreset]; simp [hb1, hb2])
      · exact absurd hbg (by rw [← hreset]; simp [hb1, hb2])
    · intro hsb hs hne
      have hpos : 0 < (subPath cfg.mapping t).length := List.length_pos_iff.2 hne
      have htp : tokenPath cfg.mapping t = subPath cfg.mapping t := by unfold tokenPath; rw [if_pos hs]
      have := hfresh (tokenPath cfg.mapping t).length ?_ (Nat.le_refl _)
      · rw [List.take_of_length_le (by omega)] at this; exact this
      rw [htp]
      have hle := hs.2.2.length_le
      rcases hc with ⟨_, hc⟩ | ⟨_, _, hc⟩ | ⟨hb1, hb2, _, hc⟩ | ⟨_, _, hns, _⟩
      · have := (requirePath_spec _ _ _ _ hc h.agree (hlbm.sub (List.dropLast_subset _))).2.1
        rw [this, List.length_dropLast]; omega
      · have := (requirePath_spec _ _ _ _ hc h.agree (fun f hf => by simp at hf)).2.1
        rw [this]; simpa using hpos
      · have := (requirePathOrBelow_spec _ _ _ _ hc h.agree (hsubNoLb.sub (List.dropLast_subset _))).2.1
        rw [this]
        have := (commonPath_prefix_right st.w.path
          (if hasSub cfg.mapping t then subPath cfg.mapping t else []).dropLast).length_le
        rw [if_pos hs, List.length_dropLast] at this
        rw [if_pos hs]
        omega
      · exact absurd hsb hns
    · intro hsb hs hne
      have hpos : 0 < (mainPath cfg.mapping t).length := List.length_pos_iff.2 hne
      refine hfresh _ ?_ hmp.length_le
      rcases hc with ⟨_, hc⟩ | ⟨_, _, hc⟩ | ⟨_, _, _, hc⟩ | ⟨_, _, hns, _⟩
      · have := (requirePath_spec _ _ _ _ hc h.agree (hlbm.sub (List.dropLast_subset _))).2.1
        rw [this, List.length_dropLast]; omega
      · have := (requirePath_spec _ _ _ _ hc h.agree (fun f hf => by simp at hf)).2.1
        rw [this]; simpa using hpos
      · have := (requirePathOrBelow_spec _ _ _ _ hc h.agree (hsubNoLb.sub (List.dropLast_subset _))).2.1
        rw [this]
        have := (commonPath_prefix_right st.w.path
          (if hasSub cfg.mapping t then subPath cfg.mapping t else []).dropLast).length_le
        rw [if_neg hs] at this
        rw [if_neg hs]
        simp only [List.dropLast_nil, List.length_nil] at this ⊢
        omega
      · exact absurd hsb hns
    · intro q u mid hfol hnb hnr hmu hsub
      obtain ⟨l1, l2⟩ := hfollows q u mid hfol
      rw [l2]
      have hMw : mainPath cfg.mapping t <+: st.w.path := by
        rw [l1, hmu]; exact tokenPath_eq _ _
      rcases hc with ⟨hb1, _⟩ | ⟨_, hb2, _⟩ | ⟨hb1, hb2, hsb, hc⟩ | ⟨_, _, hns, rfl⟩
      · exact absurd hb1 hnb
      · exact absurd (hreset.1 hb2) hnr
      · obtain ⟨hs, hlt⟩ := hsub hsb
        obtain ⟨_, c2, _, c4⟩ := requirePathOrBelow_spec _ _ _ _ hc h.agree (hsubNoLb.sub (List.dropLast_subset _))
        rw [if_pos hs] at c2 c4
        have hMs : mainPath cfg.mapping t <+: (subPath cfg.mapping t).dropLast := by
          rw [List.dropLast_eq_take, List.prefix_take_iff]
          exact ⟨hs.2.2, by omega⟩
        have hMc := prefix_commonPath hMw hMs
        have hM1 : mainPath cfg.mapping t <+: commonPath w1.path (tokenPath cfg.mapping t) := by
          rw [c2]; exact prefix_commonPath hMc hmp
        show w3.addr.take _ = _
        rw [htake _ hM1.length_le, c4, List.take_take]
        congr 1
        have := hMc.length_le
        omega
      · show w3.addr.take _ = _
        exact htake _ (prefix_commonPath hMw hmp).length_le
    · intro q u mid hfol hnb hnr hns hmu
      obtain ⟨l1, l2⟩ := hfollows q u mid hfol
      rw [l2]
      rcases hc with ⟨hb1, _⟩ | ⟨_, hb2, _⟩ | ⟨hb1, hb2, hsb, hc⟩ | ⟨_, _, _, rfl⟩
      · exact absurd hb1 hnb
      · exact absurd (hreset.1 hb2) hnr
      · exact absurd hsb hns
      · rw [← hmu] at l1
        have := htake (tokenPath cfg.mapping t).length (by rw [l1, commonPath_self]; exact Nat.le_refl _)
        have hl := addr_length h.agree
        rw [l1] at hl
        rw [List.take_of_length_le (by omega), List.take_of_length_le (by omega)] at this
        exact this
    · intro pre q mid b hs hm hq hbb
      rcases split_append hs with ⟨pre', _, h2⟩ | ⟨mid', rfl, h2⟩
      · have hmem : q ∈ spacePieces w2.addr w2.chain pend := by rw [h2]; simp
        obtain ⟨v, hv, rfl⟩ := List.mem_map.1 hmem
        show w2.addr <+: w3.addr
        have hne : pend ≠ [] := by rintro rfl; simp at hv
        rcases f3 with ⟨f3, _⟩ | ⟨f3, f4⟩
        · rw [h.pending] at f3
          exact absurd (List.map_eq_nil_iff.1 f3) hne
        · have hl := addr_length f1
          rw [f3] at hl
          have := r4 w2.addr.length (by rw [hcommon, hl]; exact Nat.le_refl _)
          rw [List.take_length] at this
          rw [← this]; exact List.take_prefix _ _
      · have := h.noSpace pre q mid' b h2 (fun r hr => hm r (by simp [hr])) hq
        rw [hbb] at this; cases this
    · intro pre q mid b hs hm hq hbb hmne
      have hpos : 0 < (mainPath cfg.mapping t).length := List.length_pos_iff.2 hmne
      rcases split_append hs with ⟨pre', _, h2⟩ | ⟨mid', rfl, h2⟩
      · have hmem : q ∈ spacePieces w2.addr w2.chain pend := by rw [h2]; simp
        obtain ⟨v, hv, rfl⟩ := List.mem_map.1 hmem
        have hne : pend ≠ [] := by rintro rfl; simp at hv
        show w2.addr.length < _ ∨ ∃ (q' : Piece) (u : Tok) (mid' : List Piece), _ ∧ w2.addr <+: q'.addr
        rcases f3 with ⟨f3, _⟩ | ⟨f3, f4⟩
        · rw [h.pending] at f3
          exact absurd (List.map_eq_nil_iff.1 f3) hne
        · have hl := addr_length f1
          rw [f3] at hl
          have hle := (commonPath_prefix_left w1.path (tokenPath cfg.mapping t)).length_le
          have hback : w1.path.length ≤ st.w.path.length → w1.addr <+: st.w.addr →
              w2.addr.length < (mainPath cfg.mapping t).length ∨
              ∃ (q' : Piece) (u : Tok) (mid' : List Piece), follows cfg.cc bef q' u mid' ∧ w2.addr <+: q'.addr := by
            intro hb1 hb2
            rcases last_text cfg.cc ps with hno | ⟨q', u, mid', ⟨pre0, hps⟩, k1, k2, k3⟩
            · have := h.start hno
              rw [this] at hb1
              simp only [List.length_nil] at hb1
              left
              omega
            · right
              have hfol : follows cfg.cc bef q' u (mid' ++ spacePieces w2.addr w2.chain pend) := by
                refine ⟨⟨pre0, ?_⟩, k1, k2, noText_append k3 (spacePieces_noText hpb)⟩
                simp only [bef]
                rw [hps]
                simp
              refine ⟨q', u, _, hfol, ?_⟩
              rw [(hfollows _ _ _ hfol).2, f4]
              exact (List.take_prefix _ _).trans hb2
          rcases hc with ⟨_, hc⟩ | ⟨_, _, hc⟩ | ⟨_, _, _, hc⟩ | ⟨_, _, _, rfl⟩
          · have := (requirePath_spec _ _ _ _ hc h.agree (hlbm.sub (List.dropLast_subset _))).2.1
            rw [this, List.length_dropLast] at hle
            rw [this] at hl
            left
            omega
          · have := (requirePath_spec _ _ _ _ hc h.agree (fun f hf => by simp at hf)).2.1
            rw [this] at hle hl
            simp only [List.length_nil] at hle
            left
            omega
          · obtain ⟨_, c2, _, c4⟩ := requirePathOrBelow_spec _ _ _ _ hc h.agree (hsubNoLb.sub (List.dropLast_subset _))
            refine hback ?_ ?_
            · rw [c2]; exact (commonPath_prefix_left _ _).length_le
            · rw [c4]; exact List.take_prefix _ _
          · exact hback (Nat.le_refl _) (List.prefix_refl _)
      · have := h.noSpace pre q mid' b h2 (fun r hr => hm r (by simp [hr])) hq
        rw [hbb] at this; cases this
  refine ⟨bef ++ [⟨some t, w3.addr, w3.chain⟩], ?_, ?_, ?_, ?_, by simp, rfl, by simp, ?_, ?_, ?_, ?_⟩
  · show Agree (w3.appendText t.text)
    unfold Agree; rw [q2, q3]; exact r3
  · show (w3.appendText t.text).items = _
    rw [writer_items_appendText, r1, hbef]
    simp [Piece.items]
  · have := h.toks
    simp only [bef, List.filterMap_append, spacePieces_toks, this]
    simp
  · have := h.order
    have e : ((spacePieces w2.addr w2.chain pend).map (·.tok)).filter (notBlank cfg.cc) = [] := by
      rw [List.filter_eq_nil_iff]
      intro x hx
      obtain ⟨p, hp, rfl⟩ := List.mem_map.1 hx
      obtain ⟨u, hu, rfl⟩ := List.mem_map.1 hp
      simp [notBlank, hpb u hu]
    simp only [bef, List.map_append, List.filter_append, e, this]
    simp
  · rintro q u mid ⟨⟨pre, hs⟩, hq, hub, hm⟩
    show (w3.appendText t.text).path = _ ∧ _ = (w3.appendText t.text).addr
    rw [q1, q3]
    rcases split_concat hs with ⟨_, rfl, _⟩ | ⟨mid', rfl, _⟩
    · cases hq; exact ⟨r2, rfl⟩
    · have := hm ⟨some t, w3.addr, w3.chain⟩ (by simp)
      simp [Piece.isText, hb] at this
  · intro pre q mid b hs hm hq
    rcases split_concat hs with ⟨_, rfl, _⟩ | ⟨mid', rfl, _⟩
    · cases hq; exact hb
    · have := hm ⟨some t, w3.addr, w3.chain⟩ (by simp)
      simp [Piece.isText, hb] at this
  · refine GoodPieces.append (h.good.append_blank (spacePieces_noText hpb)) ?_
    intro u hu hub
    cases hu
    exact hgood
  · intro hn
    have := hn ⟨some t, w3.addr, w3.chain⟩ (by simp)
    simp [Piece.isText, hb] at this

/-- No text token asks for a line break element. -/
def TokNoLb (cfg : WriteCfg) (t : Tok) : Prop := blank cfg.cc t = false → NoLb (tokenPath cfg.mapping t)

theorem writeTokens_rel {cfg : WriteCfg} (ts : List Tok) {seen : List (Option Tok)} {st st' : WState}
    {ps : List Piece} {pend : List Tok} (h : Rel cfg seen st ps pend)
    (hlb : ∀ t ∈ ts, TokNoLb cfg t) (hw : writeTokens cfg st ts = .ok st') :
    ∃ ps' pend', Rel cfg (seen ++ ts.map some) st' ps' pend' := by
  induction ts generalizing seen st ps pend with
  | nil => simp only [writeTokens] at hw; cases hw; exact ⟨ps, pend, by simpa using h⟩
  | cons t ts ih =>
    simp only [writeTokens] at hw
    split at hw
    · cases hw
    · next st1 h1 =>
      have : seen ++ (t :: ts).map some = (seen ++ [some t]) ++ ts.map some := by simp
      rw [this]
      cases hb : blank cfg.cc t with
      | true => exact ih (h.space t hb h1) (fun u hu => hlb u (by simp [hu])) hw
      | false =>
        obtain ⟨ps1, hr⟩ := h.text t hb (hlb t (by simp) hb) h1
        exact ih hr (fun u hu => hlb u (by simp [hu])) hw

/-- The sequence of tokens and breaks of some lines, the first one with a break in front or not. -/
def seqOf (first : Bool) : List (List Tok) → List (Option Tok)
  | [] => []
  | l :: ls => (if first then [] else [none]) ++ l.map some ++ seqOf false ls

theorem seqOf_eq (ls : List (List Tok)) : seqOf true ls = withBreaks ls := by
  have key : ∀ (l : List Tok) ls, withBreaks (l :: ls) = l.map some ++ seqOf false ls := by
    intro l ls
    induction ls generalizing l with
    | nil => simp [withBreaks, seqOf]
    | cons m ls ih => simp [withBreaks, seqOf, ih]
  cases ls with
  | nil => rfl
  | cons l ls => rw [key]; simp [seqOf]

theorem writeLines_rel {cfg : WriteCfg} (ls : List (List Tok)) {first : Bool} {seen : List (Option Tok)}
    {st st' : WState} {ps : List Piece} {pend : List Tok} (h : Rel cfg seen st ps pend)
    (hlb : ∀ l ∈ ls, ∀ t ∈ l, TokNoLb cfg t) (hw : writeLines cfg first st ls = .ok st') :
    ∃ ps' pend', Rel cfg (seen ++ seqOf first ls) st' ps' pend' := by
  induction ls generalizing seen st ps pend first with
  | nil => simp only [writeLines] at hw; cases hw; exact ⟨ps, pend, by simpa [seqOf] using h⟩
  | cons l ls ih =>
    simp only [writeLines] at hw
    split at hw
    · cases hw
    · next st1 h1 =>
      have h0 : ∃ ps0, Rel cfg (seen ++ if first = true then [] else [none])
          (if first = true then st else { st with w := st.w.append lbElem }) ps0 pend := by
        split
        · exact ⟨ps, by simpa using h⟩
        · exact ⟨_, h.break⟩
      obtain ⟨ps0, h0⟩ := h0
      obtain ⟨ps1, pend1, h2⟩ := writeTokens_rel l h0 (hlb l (by simp)) h1
      obtain ⟨ps2, pend2, h3⟩ := ih h2 (fun m hm => hlb m (by simp [hm])) hw
      refine ⟨ps2, pend2, ?_⟩
      simpa [seqOf] using h3

theorem seqOf_toks (first : Bool) (ls : List (List Tok)) : (seqOf first ls).filterMap id = ls.flatten := by
  induction ls generalizing first with
  | nil => rfl
  | cons l ls ih =>
    simp only [seqOf, List.filterMap_append, ih, List.flatten_cons]
    cases first <;> simp [List.filterMap_map]

/-- The written element as a list of places. -/
theorem linesToTei_pieces (cfg : WriteCfg) (tag : Str) (attrib : Dict Str) (f : Frame) (lines : List (List Tok))
    (hlb : ∀ l ∈ lines, ∀ t ∈ l, TokNoLb cfg t)
    (h : linesToTei cfg ⟨tag, attrib, none, []⟩ lines = .ok f) :
    ∃ ps : List Piece,
      Spec.items f.close = ps.flatMap Piece.items ∧
      ps.filterMap (·.tok) = lines.flatten ∧
      (ps.map (·.tok)).filter (notBlank cfg.cc) = (withBreaks lines).filter (notBlank cfg.cc) ∧
      GoodPieces cfg.cc cfg.mapping ps ∧
      (∀ pre q mid b, ps = pre ++ q :: mid → noText cfg.cc mid → q.tok = some b →
        blank cfg.cc b = true → q.addr = []) := by
  unfold linesToTei at h
  split at h
  · cases h
  · next st hst =>
    split at h
    · cases h
    · next w hw =>
      cases h
      have h0 : Rel cfg [] ⟨⟨⟨tag, attrib, none, []⟩, [], []⟩, [], []⟩ [] [] := by
        refine ⟨rfl, rfl, rfl, rfl, by simp, rfl, by simp, ?_, ?_, ?_, fun _ => rfl⟩
        · rintro q u mid ⟨⟨pre, hs⟩, _⟩; simp at hs
        · intro pre q mid b hs; simp at hs
        · intro pre q post t hs; simp at hs
      obtain ⟨ps, pend, hr⟩ := writeLines_rel lines h0 hlb hst
      rw [List.nil_append, seqOf_eq] at hr
      obtain ⟨f1, f2, f3⟩ := flushPending_spec cfg [] _ _ _ hw hr.agree (fun f hf => by simp at hf)
      have hitems : Spec.items w.finish.close = w.items := by
        rw [← finish_items]; simp [Spec.items, Frame.items, Frame.close, itemsElem]
      refine ⟨ps ++ spacePieces w.addr w.chain pend, ?_, ?_, ?_, ?_, ?_⟩
      · rw [hitems, f2, hr.items, hr.pending, List.flatMap_append, spacePieces_items]
      · rw [List.filterMap_append, spacePieces_toks, hr.toks, ← seqOf_eq, seqOf_toks]
      · have e : ((spacePieces w.addr w.chain pend).map (·.tok)).filter (notBlank cfg.cc) = [] := by
          rw [List.filter_eq_nil_iff]
          intro x hx
          obtain ⟨p, hp, rfl⟩ := List.mem_map.1 hx
          obtain ⟨u, hu, rfl⟩ := List.mem_map.1 hp
          simp [notBlank, hr.pendBlank u hu]
        rw [List.map_append, List.filter_append, e, hr.order]; simp
      · exact hr.good.append_blank (spacePieces_noText hr.pendBlank)
      · intro pre q mid b hs hm hq hbb
        rcases split_append hs with ⟨pre', _, h2⟩ | ⟨mid', rfl, h2⟩
        · have hmem : q ∈ spacePieces w.addr w.chain pend := by rw [h2]; simp
          obtain ⟨v, hv, rfl⟩ := List.mem_map.1 hmem
          show w.addr = []
          rcases f3 with ⟨f3, _⟩ | ⟨_, f4⟩
          · rw [hr.pending] at f3
            have := List.map_eq_nil_iff.1 f3
            subst this; simp at hv
          · have : commonPath st.w.path [] = [] := by cases st.w.path <;> rfl
            rw [f4, this]; rfl
        · have := hr.noSpace pre q mid' b h2 (fun r hr => hm r (by simp [hr])) hq
          rw [hbb] at this; cases this

/-! ### Line breaks -/

/-- A character that is not white space, or a break. -/
def keepChar (cc : CharClass) : Option Char → Bool
  | none => true
  | some c => !cc.isSpace c

def tokFlow : Option Tok → List (Option Char)
  | none => [none]
  | some t => t.text.map some

theorem pieces_flow (ps : List Piece) :
    (ps.flatMap Piece.items).map (·.ch) = (ps.map (·.tok)).flatMap tokFlow := by
  induction ps with
  | nil => rfl
  | cons p ps ih =>
    simp only [List.flatMap_cons, List.map_append, ih, List.map_cons]
    congr 1
    unfold Piece.items
    cases p.tok <;> simp [tokFlow, textAt]

theorem keep_flow (cc : CharClass) (l : List (Option Tok)) :
    (l.flatMap tokFlow).filter (keepChar cc) =
      ((l.filter (notBlank cc)).flatMap tokFlow).filter (keepChar cc) := by
  induction l with
  | nil => rfl
  | cons x l ih =>
    simp only [List.flatMap_cons, List.filter_append, ih, List.filter_cons]
    split
    · simp
    · next h =>
      have : (tokFlow x).filter (keepChar cc) = [] := by
        cases x with
        | none => simp [notBlank] at h
        | some t =>
          simp only [notBlank, Bool.not_eq_true, Bool.not_eq_false'] at h
          rw [List.filter_eq_nil_iff]
          intro y hy
          obtain ⟨c, hc, rfl⟩ := List.mem_map.1 hy
          have := List.all_eq_true.1 h c hc
          simp [keepChar, this]
      rw [this]; rfl

theorem splitBreaks_filter (cc : CharClass) (r : List (Option Char)) :
    Spec.splitBreaks (r.filter (keepChar cc)) =
      (Spec.splitBreaks r).map (fun l => l.filter (fun c => !cc.isSpace c)) := by
  induction r with
  | nil => rfl
  | cons x r ih =>
    cases x with
    | none => rw [List.filter_cons_of_pos (by rfl)]; simp [Spec.splitBreaks, ih]
    | some c =>
      cases hr : Spec.splitBreaks r with
      | nil => exact absurd hr (splitBreaks_ne_nil r)
      | cons l ls =>
        rw [hr] at ih
        by_cases hc : cc.isSpace c = true
        · simp [keepChar, hc, Spec.splitBreaks, ih, hr]
        · simp [keepChar, hc, Spec.splitBreaks, ih, hr]

theorem withBreaks_flow (l : List Tok) (ls : List (List Tok)) :
    Spec.splitBreaks ((withBreaks (l :: ls)).flatMap tokFlow) = (l :: ls).map toksText := by
  have e : ∀ l : List Tok, (l.map some).flatMap tokFlow = (toksText l).map some := by
    intro l
    induction l with
    | nil => rfl
    | cons t l ih => simp [tokFlow] at ih ⊢; simp [ih]
  induction ls generalizing l with
  | nil => simp only [withBreaks, e, splitBreaks_chars_end, List.map_cons, List.map_nil]
  | cons m ls ih =>
    have : (withBreaks (l :: m :: ls)).flatMap tokFlow =
        (toksText l).map some ++ none :: (withBreaks (m :: ls)).flatMap tokFlow := by
      simp only [withBreaks, List.flatMap_append, e, List.flatMap_cons]
      simp [tokFlow]
    rw [this, splitBreaks_chars, ih]; rfl

/-! ### Success -/

/-- All fragments of a path can be turned into elements. -/
def OkPath (cfg : WriteCfg) (path : List Str) : Prop :=
  ∀ f ∈ path, ∃ t a, parseTagExpression f = .ok (t, a) ∧ cfg.okNode t a = true

theorem enterPath_ok (cfg : WriteCfg) (fs : List Str) (w : Writer) (h : OkPath cfg fs) :
    ∃ w', enterPath cfg.okNode fs w = .ok w' := by
  induction fs generalizing w with
  | nil => exact ⟨w, rfl⟩
  | cons f fs ih =>
    obtain ⟨t, a, h1, h2⟩ := h f (by simp)
    simp only [enterPath, h1, h2, if_true]
    exact ih _ (fun g hg => h g (by simp [hg]))

theorem requirePath_ok (cfg : WriteCfg) (req : List Str) (w : Writer) (h : OkPath cfg req) :
    ∃ w', requirePath cfg.okNode req w = .ok w' := by
  unfold requirePath
  split
  · exact ⟨w, rfl⟩
  · exact enterPath_ok cfg _ _ (fun f hf => h f (List.drop_subset _ _ hf))

theorem requirePathOrBelow_ok (cfg : WriteCfg) (req : List Str) (w : Writer) (h : OkPath cfg req) :
    ∃ w', requirePathOrBelow cfg.okNode req w = .ok w' :=
  requirePath_ok cfg _ w (fun f hf => h f ((commonPath_prefix_right _ _).subset hf))

theorem flushPending_ok (cfg : WriteCfg) (req : List Str) (ss : List Str) (w : Writer)
    (h : OkPath cfg req) : ∃ w', flushPending cfg req ss w = .ok w' := by
  induction ss generalizing w with
  | nil => exact ⟨w, rfl⟩
  | cons s ss ih =>
    obtain ⟨w1, h1⟩ := requirePathOrBelow_ok cfg req w h
    simp only [flushPending, h1]
    exact ih _

theorem writeToken_ok (cfg : WriteCfg) (st : WState) (t : Tok)
    (h : blank cfg.cc t = false → OkPath cfg (tokenPath cfg.mapping t)) :
    ∃ st', writeToken cfg st t = .ok st' := by
  unfold writeToken
  rw [writerTags_eq]
  simp only
  rw [strip_isEmpty_eq_blank]
  cases hb : blank cfg.cc t with
  | true => exact ⟨_, rfl⟩
  | false =>
    have h := h hb
    simp only [Bool.false_eq_true, if_false]
    have hm : tagRequiredPath cfg.mapping (splitTagPrefix (fullTag t)).2 = mainPath cfg.mapping t := rfl
    rw [hm]
    obtain ⟨e1, e2⟩ := effectiveSub_eq cfg t
    have hreq : (if truthy (effectiveSub cfg (mainPath cfg.mapping t) (fullSubTag t)).1 = true then
        (effectiveSub cfg (mainPath cfg.mapping t) (fullSubTag t)).2 else mainPath cfg.mapping t) =
        tokenPath cfg.mapping t := by
      rw [e1, e2]
      unfold tokenPath
      by_cases hs : hasSub cfg.mapping t <;> simp [hs]
    rw [hreq, e2]
    have hok1 : OkPath cfg (mainPath cfg.mapping t) := fun f hf => h f ((tokenPath_eq _ _).subset hf)
    have hok2 : OkPath cfg (if hasSub cfg.mapping t then subPath cfg.mapping t else []) := by
      split
      · next hs => unfold tokenPath at h; rwa [if_pos hs] at h
      · intro f hf; simp at hf
    generalize hx : (if (splitTagPrefix (fullTag t)).1 = some bPrefix then
        requirePath cfg.okNode (mainPath cfg.mapping t).dropLast st.w
      else if st.resets.contains (splitTagPrefix (fullTag t)).2 = true then requirePath cfg.okNode [] st.w
      else if (splitTagPrefix (fullSubTag t)).1 = some bPrefix then
        requirePathOrBelow cfg.okNode
          (if hasSub cfg.mapping t then subPath cfg.mapping t else []).dropLast st.w
      else Except.ok st.w) = x
    have hx' : ∃ w1, x = .ok w1 := by
      rw [← hx]
      split
      · exact requirePath_ok cfg _ _ (fun f hf => hok1 f (List.dropLast_subset _ hf))
      · split
        · exact requirePath_ok cfg _ _ (fun f hf => by simp at hf)
        · split
          · exact requirePathOrBelow_ok cfg _ _ (fun f hf => hok2 f (List.dropLast_subset _ hf))
          · exact ⟨_, rfl⟩
    obtain ⟨w1, rfl⟩ := hx'
    simp only
    obtain ⟨w2, hw2⟩ := flushPending_ok cfg (tokenPath cfg.mapping t) st.pending w1 h
    rw [hw2]
    simp only
    obtain ⟨w3, hw3⟩ := requirePath_ok cfg (tokenPath cfg.mapping t) w2 h
    rw [hw3]
    exact ⟨_, rfl⟩

theorem writeTokens_ok (cfg : WriteCfg) (ts : List Tok) (st : WState)
    (h : ∀ t ∈ ts, blank cfg.cc t = false → OkPath cfg (tokenPath cfg.mapping t)) :
    ∃ st', writeTokens cfg st ts = .ok st' := by
  induction ts generalizing st with
  | nil => exact ⟨st, rfl⟩
  | cons t ts ih =>
    obtain ⟨st1, h1⟩ := writeToken_ok cfg st t (h t (by simp))
    simp only [writeTokens, h1]
    exact ih _ (fun u hu => h u (by simp [hu]))

theorem writeLines_ok (cfg : WriteCfg) (ls : List (List Tok)) (first : Bool) (st : WState)
    (h : ∀ l ∈ ls, ∀ t ∈ l, blank cfg.cc t = false → OkPath cfg (tokenPath cfg.mapping t)) :
    ∃ st', writeLines cfg first st ls = .ok st' := by
  induction ls generalizing st first with
  | nil => exact ⟨st, rfl⟩
  | cons l ls ih =>
    obtain ⟨st1, h1⟩ := writeTokens_ok cfg l (if first then st else { st with w := st.w.append lbElem })
      (h l (by simp))
    simp only [writeLines, h1]
    exact ih _ _ (fun m hm => h m (by simp [hm]))

theorem linesToTei_ok (cfg : WriteCfg) (c : Frame) (ls : List (List Tok))
    (h : ∀ l ∈ ls, ∀ t ∈ l, blank cfg.cc t = false → OkPath cfg (tokenPath cfg.mapping t)) :
    ∃ f, linesToTei cfg c ls = .ok f := by
  unfold linesToTei
  obtain ⟨st, h1⟩ := writeLines_ok cfg ls true ⟨⟨c, [], []⟩, [], []⟩ h
  rw [h1]
  obtain ⟨w, h2⟩ := flushPending_ok cfg [] st.pending st.w (fun f hf => by simp at hf)
  simp only [h2]
  exact ⟨_, rfl⟩

end Verif
