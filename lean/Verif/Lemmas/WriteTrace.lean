/-
The starts, ends and characters of the element written for a document.
-/
import Verif.Lemmas.LoadTrace
import Verif.Lemmas.ReloadWrite

namespace Verif
open Spec

/-! ### The trace of the writer -/

def Frame.trace (f : Frame) : List TEv := chEvs (orEmpty f.text) ++ listTrace f.children

/-- What has been written so far; the open elements have no end yet. -/
def openTrace : Frame → List Frame → List TEv
  | f, [] => f.trace
  | f, p :: ps => openTrace p ps ++ TEv.start (component f.tag f.attrib) :: f.trace

def Writer.trace (w : Writer) : List TEv := openTrace w.cur w.parents

theorem chEvs_append (a b : Str) : chEvs (a ++ b) = chEvs a ++ chEvs b := List.map_append

theorem listTrace_append (a b : List Elem) : listTrace (a ++ b) = listTrace a ++ listTrace b := by
  induction a with
  | nil => simp [listTrace]
  | cons e a ih =>
    obtain ⟨t, at', x, cs, tl⟩ := e
    simp [listTrace, ih]

theorem trace_appendText (f : Frame) (s : Str) : (f.appendText s).trace = f.trace ++ chEvs s := by
  unfold Frame.appendText
  split
  · next h => rw [List.isEmpty_iff.1 h]; simp [chEvs]
  · split
    · next c hc =>
      obtain ⟨t, a, x, cs, tl⟩ := c
      have hl : f.children = f.children.dropLast ++ [.mk t a x cs tl] := by
        obtain ⟨ys, hy⟩ := List.getLast?_eq_some_iff.1 hc
        rw [hy]; simp
      simp only [Frame.trace]
      conv => rhs; rw [hl]
      rw [listTrace_append, listTrace_append]
      simp only [Elem.withTail, Elem.tail, listTrace, List.append_nil, orEmpty, chEvs_append, List.append_assoc, List.cons_append]
      rfl
    · next hc =>
      have hn : f.children = [] := List.getLast?_eq_none_iff.1 hc
      simp [Frame.trace, hn, listTrace, orEmpty, chEvs_append]

theorem openTrace_congr (f g : Frame) (ps : List Frame) (h1 : f.tag = g.tag) (h2 : f.attrib = g.attrib) (T : List TEv)
    (h : f.trace = g.trace ++ T) : openTrace f ps = openTrace g ps ++ T := by
  cases ps with
  | nil => exact h
  | cons p ps => simp [openTrace, h1, h2, h]

theorem wtrace_appendText (w : Writer) (s : Str) : (w.appendText s).trace = w.trace ++ chEvs s :=
  openTrace_congr _ _ _ (frame_appendText_tag _ _).1 (frame_appendText_tag _ _).2 _ (trace_appendText _ _)

theorem trace_append (f : Frame) (e : Elem) : (f.append e).trace = f.trace ++ listTrace [e] := by
  simp [Frame.trace, Frame.append, listTrace_append]

theorem wtrace_lb (w : Writer) : (w.append lbElem).trace = w.trace ++ [.start c!"lb", .stop] :=
  openTrace_congr (w.cur.append lbElem) w.cur w.parents rfl rfl _ (by
    rw [trace_append]
    rfl)

theorem wtrace_leave (w : Writer) (h : w.parents ≠ []) : w.leave.trace = w.trace ++ [.stop] := by
  obtain ⟨cur, ps, path⟩ := w
  cases ps with
  | nil => exact absurd rfl h
  | cons p ps =>
    show openTrace (p.append cur.close) ps = openTrace p ps ++ TEv.start (component cur.tag cur.attrib) :: cur.trace ++ [.stop]
    rw [openTrace_congr (p.append cur.close) p ps rfl rfl _ (trace_append p cur.close)]
    simp [Frame.close, listTrace, elemTrace, orEmpty, chEvs, Frame.trace]

theorem wtrace_leaveN (n : Nat) (w : Writer) (h : n ≤ w.parents.length) :
    (w.leaveN n).trace = w.trace ++ List.replicate n .stop := by
  induction n generalizing w with
  | zero => simp [Writer.leaveN]
  | succ n ih =>
    have hne : w.parents ≠ [] := by intro h0; rw [h0] at h; simp at h
    rw [Writer.leaveN, ih _ (by rw [leave_parents, List.length_drop]; omega), wtrace_leave w hne, List.append_assoc]
    rfl

theorem wtrace_enterPath (ok : Str → Dict Str → Bool) (fs : List Str) (w w' : Writer) (h : enterPath ok fs w = .ok w')
    (hs : ∀ f ∈ fs, Stable f) : w'.trace = w.trace ++ fs.map TEv.start ∧ w'.path = w.path ++ fs ∧
      w'.parents.length = w.parents.length + fs.length := by
  induction fs generalizing w with
  | nil => cases h; simp
  | cons f fs ih =>
    simp only [enterPath] at h
    split at h
    · cases h
    · next tag attrib hp =>
      split at h
      · obtain ⟨h1, h2, h3⟩ := ih _ h (fun g hg => hs g (by simp [hg]))
        refine ⟨?_, by rw [h2]; simp, by rw [h3]; simp; omega⟩
        rw [h1]
        have : component tag attrib = f := (hs f (by simp) tag attrib hp).1
        simp [Writer.trace, openTrace, Frame.trace, orEmpty, chEvs, listTrace, this]
      · cases h

/-- The way from one path to another. -/
def moves (p q : List Str) : List TEv :=
  List.replicate (p.length - (commonPath p q).length) .stop ++ (q.drop (commonPath p q).length).map TEv.start

theorem moves_self (p : List Str) : moves p p = [] := by simp [moves, commonPath_self]

/-- The path is that of the open elements. -/
def WriterOk (w : Writer) : Prop := w.parents.length = w.path.length

theorem requirePath_trace {ok : Str → Dict Str → Bool} {req : List Str} {w w' : Writer} (h : requirePath ok req w = .ok w')
    (hi : WriterOk w) (hs : ∀ f ∈ req, Stable f) :
    w'.trace = w.trace ++ moves w.path req ∧ w'.path = req ∧ WriterOk w' := by
  unfold requirePath at h
  unfold WriterOk at hi ⊢
  split at h
  · next hr => cases h; rw [hr, moves_self]; simp [hi]
  · simp only at h
    have hle := (commonPath_prefix_left w.path req).length_le
    have hle2 := (commonPath_prefix_right w.path req).length_le
    obtain ⟨_, _, _, _, g5⟩ := leaveN_spec (w.path.length - (commonPath w.path req).length) w
    have g := wtrace_leaveN (w.path.length - (commonPath w.path req).length) w (by omega)
    obtain ⟨h1, h2, h3⟩ := wtrace_enterPath ok _ _ _ h (fun f hf => hs f (List.mem_of_mem_drop hf))
    have hq : commonPath w.path req ++ req.drop (commonPath w.path req).length = req :=
      List.prefix_iff_eq_append.1 (commonPath_prefix_right w.path req)
    refine ⟨?_, by rw [h2]; exact hq, ?_⟩
    · rw [h1]
      have : ∀ (w : Writer) p, ({ w with path := p } : Writer).trace = w.trace := fun _ _ => rfl
      rw [this, g, moves, List.append_assoc]
    · rw [h3, h2]
      simp only [g5, List.length_drop, List.length_append]
      omega

theorem commonPath_left_again (p q : List Str) : commonPath (commonPath p q) q = commonPath p q :=
  commonPath_eq_left (commonPath_prefix_right p q)

theorem stable_common {p q : List Str} (h : ∀ f ∈ q, Stable f) : ∀ f ∈ commonPath p q, Stable f :=
  fun f hf => h f ((commonPath_prefix_right p q).subset hf)

/-- Writing white space. -/
theorem flushPending_trace (cfg : WriteCfg) (req : List Str) (hs : ∀ f ∈ req, Stable f) (pend : List Str) (w w' : Writer)
    (h : flushPending cfg req pend w = .ok w') (hi : WriterOk w) :
    w'.path = (if pend = [] then w.path else commonPath w.path req) ∧ WriterOk w' ∧
    w'.trace = w.trace ++ moves w.path (if pend = [] then w.path else commonPath w.path req) ++ chEvs pend.flatten := by
  induction pend generalizing w with
  | nil => cases h; simp [hi, moves_self, chEvs]
  | cons s ss ih =>
    simp only [flushPending] at h
    split at h
    · cases h
    · next w1 h1 =>
      obtain ⟨g1, g2, g3⟩ := requirePath_trace h1 hi (stable_common hs)
      obtain ⟨k1, k2, k3⟩ := ih (w1.appendText s) h g3
      have hp : (w1.appendText s).path = commonPath w.path req := g2
      rw [hp] at k1 k3
      simp only [commonPath_left_again, ite_self, moves_self, List.append_nil] at k1 k3
      refine ⟨by rw [k1]; simp, k2, ?_⟩
      rw [k3, wtrace_appendText, g1]
      simp [chEvs_append]

/-! ### The trace of a document -/

/-- Where the writer goes before the white space in front of a text token is written. -/
def PreMove (mapping : Dict Str) (p : List Str) (resets : List (Option Str)) (t : Tok) (p1 : List Str) : Prop :=
  (isBegin t ∧ p1 = (mainPath mapping t).dropLast) ∨
  (¬ isBegin t ∧ stripTagPrefix (fullTag t) ∈ resets ∧ p1 = []) ∨
  (¬ isBegin t ∧ stripTagPrefix (fullTag t) ∉ resets ∧ isSubBegin t ∧
    p1 = commonPath p (if hasSub mapping t then subPath mapping t else []).dropLast) ∨
  (¬ isBegin t ∧ stripTagPrefix (fullTag t) ∉ resets ∧ ¬ isSubBegin t ∧ p1 = p)

/-- What is written for tokens and line breaks, with the current path, the white space not written yet and the begin
prefixes on white space. -/
inductive DocTrace (cc : CharClass) (mapping : Dict Str) :
    List Str → List Str → List (Option Str) → List (Option Tok) → List TEv → Prop
  | done (p pend : List Str) (resets : List (Option Str)) :
      DocTrace cc mapping p pend resets [] (List.replicate p.length .stop ++ chEvs pend.flatten)
  | brk (p pend : List Str) (resets : List (Option Str)) (r : List (Option Tok)) (T : List TEv) :
      DocTrace cc mapping p pend resets r T → DocTrace cc mapping p pend resets (none :: r) (.start c!"lb" :: .stop :: T)
  | space (p pend : List Str) (resets : List (Option Str)) (t : Tok) (r : List (Option Tok)) (T : List TEv) :
      blank cc t = true →
      DocTrace cc mapping p (pend ++ [t.text])
        (if (splitTagPrefix (fullTag t)).1 = some bPrefix then (splitTagPrefix (fullTag t)).2 :: resets else resets) r T →
      DocTrace cc mapping p pend resets (some t :: r) T
  | text (p pend : List Str) (resets : List (Option Str)) (t : Tok) (r : List (Option Tok)) (T : List TEv) (p1 : List Str) :
      blank cc t = false → PreMove mapping p resets t p1 →
      DocTrace cc mapping (tokenPath mapping t) [] [] r T →
      DocTrace cc mapping p pend resets (some t :: r)
        (moves p p1 ++ (moves p1 (if pend = [] then p1 else commonPath p1 (tokenPath mapping t)) ++ (chEvs pend.flatten ++
          (moves (if pend = [] then p1 else commonPath p1 (tokenPath mapping t)) (tokenPath mapping t) ++ (chEvs t.text ++ T)))))

theorem writeToken_trace (cfg : WriteCfg) (st st' : WState) (t : Tok) (hb : blank cfg.cc t = false)
    (h : writeToken cfg st t = .ok st') (hi : WriterOk st.w) (hs : ∀ f ∈ tokenPath cfg.mapping t, Stable f) :
    st'.w.path = tokenPath cfg.mapping t ∧ WriterOk st'.w ∧ st'.pending = [] ∧ st'.resets = [] ∧
    ∃ p1, PreMove cfg.mapping st.w.path st.resets t p1 ∧
      st'.w.trace = st.w.trace ++ (moves st.w.path p1 ++
        (moves p1 (if st.pending = [] then p1 else commonPath p1 (tokenPath cfg.mapping t)) ++ (chEvs st.pending.flatten ++
          (moves (if st.pending = [] then p1 else commonPath p1 (tokenPath cfg.mapping t)) (tokenPath cfg.mapping t) ++ chEvs t.text)))) := by
  obtain ⟨w1, w2, w3, hpre, h2, h3, rfl⟩ := writeToken_text_step cfg st st' t hb h
  have hm : ∀ f ∈ mainPath cfg.mapping t, Stable f := fun f hf => hs f ((tokenPath_eq _ _).subset hf)
  have hsub : ∀ f ∈ (if hasSub cfg.mapping t then subPath cfg.mapping t else []), Stable f := by
    intro f hf
    split at hf
    · next hh => exact hs f (by unfold tokenPath; rw [if_pos hh]; exact hf)
    · cases hf
  have key : ∃ p1, PreMove cfg.mapping st.w.path st.resets t p1 ∧ w1.path = p1 ∧ WriterOk w1 ∧
      w1.trace = st.w.trace ++ moves st.w.path p1 := by
    rcases hpre with ⟨k1, k2⟩ | ⟨k1, k2, k3⟩ | ⟨k1, k2, k3, k4⟩ | ⟨k1, k2, k3, k4⟩
    · obtain ⟨g1, g2, g3⟩ := requirePath_trace k2 hi (fun f hf => hm f (List.dropLast_subset _ hf))
      exact ⟨_, .inl ⟨k1, rfl⟩, g2, g3, g1⟩
    · obtain ⟨g1, g2, g3⟩ := requirePath_trace k3 hi (fun f hf => by cases hf)
      exact ⟨_, .inr (.inl ⟨k1, k2, rfl⟩), g2, g3, g1⟩
    · obtain ⟨g1, g2, g3⟩ := requirePath_trace k4 hi
        (stable_common (fun f hf => hsub f (List.dropLast_subset _ hf)))
      exact ⟨_, .inr (.inr (.inl ⟨k1, k2, k3, rfl⟩)), g2, g3, g1⟩
    · subst k4
      exact ⟨_, .inr (.inr (.inr ⟨k1, k2, k3, rfl⟩)), rfl, hi, by rw [moves_self]; simp⟩
  obtain ⟨p1, hp1, e1, e2, e3⟩ := key
  obtain ⟨f1, f2, f3⟩ := flushPending_trace cfg _ hs st.pending w1 w2 h2 e2
  obtain ⟨g1, g2, g3⟩ := requirePath_trace h3 f2 hs
  refine ⟨g2, g3, rfl, rfl, p1, hp1, ?_⟩
  rw [wtrace_appendText, g1, f3, f1, e1, e3]
  simp only [List.append_assoc]

theorem writeToken_space (cfg : WriteCfg) (st : WState) (t : Tok) (hb : blank cfg.cc t = true) :
    writeToken cfg st t = .ok { st with
      resets := if (splitTagPrefix (fullTag t)).1 = some bPrefix then (splitTagPrefix (fullTag t)).2 :: st.resets else st.resets
      pending := st.pending ++ [t.text] } := by
  unfold writeToken
  rw [writerTags_eq]
  simp only
  rw [strip_isEmpty_eq_blank, hb, if_pos rfl]

/-- The writer leaves `st` and its result, whatever is written afterwards. -/
theorem writeTokens_trace (cfg : WriteCfg) (ts : List Tok) (st st' : WState) (h : writeTokens cfg st ts = .ok st')
    (hi : WriterOk st.w) (hs : ∀ t ∈ ts, blank cfg.cc t = false → ∀ f ∈ tokenPath cfg.mapping t, Stable f) :
    WriterOk st'.w ∧ ∃ T1, st'.w.trace = st.w.trace ++ T1 ∧ ∀ r T2, DocTrace cfg.cc cfg.mapping st'.w.path st'.pending st'.resets r T2 →
      DocTrace cfg.cc cfg.mapping st.w.path st.pending st.resets (ts.map some ++ r) (T1 ++ T2) := by
  induction ts generalizing st with
  | nil => cases h; exact ⟨hi, [], by simp, fun r T2 h => by simpa using h⟩
  | cons t ts ih =>
    simp only [writeTokens] at h
    have hs' : ∀ u ∈ ts, blank cfg.cc u = false → ∀ f ∈ tokenPath cfg.mapping u, Stable f :=
      fun u hu => hs u (by simp [hu])
    cases hb : blank cfg.cc t with
    | true =>
      rw [writeToken_space cfg st t hb] at h
      simp only at h
      obtain ⟨k1, T1, k2, k3⟩ := ih _ h hi hs'
      refine ⟨k1, T1, k2, fun r T2 hT => ?_⟩
      exact .space _ _ _ t _ _ hb (k3 r T2 hT)
    | false =>
      cases hw : writeToken cfg st t with
      | error e => rw [hw] at h; cases h
      | ok st1 =>
        rw [hw] at h
        simp only at h
        obtain ⟨g1, g2, g3, g4, p1, g5, g6⟩ := writeToken_trace cfg st st1 t hb hw hi (hs t (by simp) hb)
        obtain ⟨k1, T1, k2, k3⟩ := ih _ h g2 hs'
        refine ⟨k1, _, by rw [k2, g6, List.append_assoc], fun r T2 hT => ?_⟩
        have := k3 r T2 hT
        rw [g1, g3, g4] at this
        have h3 := DocTrace.text st.w.path st.pending st.resets t _ _ p1 hb g5 this
        simpa only [List.append_assoc, List.map_cons, List.cons_append] using h3

theorem writeLines_trace (cfg : WriteCfg) (ls : List (List Tok)) (first : Bool) (st st' : WState)
    (h : writeLines cfg first st ls = .ok st') (hi : WriterOk st.w)
    (hs : ∀ l ∈ ls, ∀ t ∈ l, blank cfg.cc t = false → ∀ f ∈ tokenPath cfg.mapping t, Stable f) :
    WriterOk st'.w ∧ ∃ T1, st'.w.trace = st.w.trace ++ T1 ∧ ∀ r T2, DocTrace cfg.cc cfg.mapping st'.w.path st'.pending st'.resets r T2 →
      DocTrace cfg.cc cfg.mapping st.w.path st.pending st.resets (seqOf first ls ++ r) (T1 ++ T2) := by
  induction ls generalizing first st with
  | nil => cases h; exact ⟨hi, [], by simp, fun r T2 h => by simpa [seqOf] using h⟩
  | cons l ls ih =>
    simp only [writeLines] at h
    split at h
    · cases h
    · next st2 h2 =>
      have hi1 : WriterOk (if first then st else { st with w := st.w.append lbElem }).w := by
        split
        · exact hi
        · exact hi
      obtain ⟨k1, T1, k2, k3⟩ := writeTokens_trace cfg l _ st2 h2 hi1 (hs l (by simp))
      obtain ⟨m1, T2, m2, m3⟩ := ih _ st2 h k1 (fun l' hl' => hs l' (by simp [hl']))
      cases first with
      | true =>
        refine ⟨m1, T1 ++ T2, by rw [m2, k2]; simp, fun r T3 hT => ?_⟩
        have := k3 _ _ (m3 r T3 hT)
        simpa [seqOf] using this
      | false =>
        refine ⟨m1, .start c!"lb" :: .stop :: (T1 ++ T2), ?_, fun r T3 hT => ?_⟩
        · rw [m2, k2]
          simp only [Bool.false_eq_true, if_false]
          rw [wtrace_lb]
          simp
        · have h4 := DocTrace.brk _ _ _ _ _ (k3 _ _ (m3 r T3 hT))
          have hp : (st.w.append lbElem).path = st.w.path := rfl
          simpa [seqOf, hp] using h4

theorem finish_trace (w : Writer) (hi : WriterOk w) : w.finish.trace = w.trace ++ List.replicate w.path.length .stop := by
  have h := wtrace_leaveN w.parents.length w (Nat.le_refl _)
  obtain ⟨_, _, _, _, g5⟩ := leaveN_spec w.parents.length w
  unfold Writer.finish
  unfold WriterOk at hi
  rw [← hi, ← h]
  unfold Writer.trace
  rw [g5]
  simp [openTrace]

/-- The element written for the lines of a document. -/
theorem linesToTei_trace (cfg : WriteCfg) (tag : Str) (f : Frame) (lines : List (List Tok))
    (h : linesToTei cfg ⟨tag, [], none, []⟩ lines = .ok f)
    (hs : ∀ l ∈ lines, ∀ t ∈ l, blank cfg.cc t = false → ∀ f ∈ tokenPath cfg.mapping t, Stable f) :
    DocTrace cfg.cc cfg.mapping [] [] [] (withBreaks lines) (elemTrace f.close) := by
  unfold linesToTei at h
  split at h
  · cases h
  · next st hst =>
    split at h
    · cases h
    · next w hw =>
      cases h
      obtain ⟨k1, T1, k2, k3⟩ := writeLines_trace cfg lines true _ st hst rfl hs
      obtain ⟨f1, f2, f3⟩ := flushPending_trace cfg [] (fun f hf => by cases hf) st.pending st.w w hw k1
      have h0 : commonPath st.w.path [] = [] := by cases st.w.path <;> rfl
      have hfin : w.finish.trace = T1 ++ (List.replicate st.w.path.length .stop ++ chEvs st.pending.flatten) := by
        rw [finish_trace w f2, f3, f1, k2, h0]
        have he : (Writer.trace ⟨⟨tag, [], none, []⟩, [], []⟩) = [] := rfl
        simp only [he, List.nil_append]
        split
        · next hp => simp [hp, moves_self, chEvs]
        · simp [moves, h0]
      have h1 := k3 [] _ (.done _ _ _)
      rw [seqOf_eq, List.append_nil, ← hfin] at h1
      exact h1

end Verif
