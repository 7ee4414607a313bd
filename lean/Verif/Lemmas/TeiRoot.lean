/-
The container written by `_lines_to_tei` keeps its tag and attributes; finding a replaced container.
-/
import Verif.Lemmas.TeiWrite
import Verif.Lemmas.TeiDoc

namespace Verif

/-- Tag and attributes of the outermost open element. -/
def headOf (cur : Frame) : List Frame → Str × Dict Str
  | [] => (cur.tag, cur.attrib)
  | p :: ps => headOf p ps

theorem headOf_congr {f g : Frame} (h : f.tag = g.tag) (h' : f.attrib = g.attrib) (ps : List Frame) :
    headOf f ps = headOf g ps := by
  cases ps <;> simp [headOf, h, h']

theorem headOf_leaveN (n : Nat) (w : Writer) : headOf (w.leaveN n).cur (w.leaveN n).parents = headOf w.cur w.parents := by
  induction n generalizing w with
  | zero => rfl
  | succ n ih =>
    rw [Writer.leaveN, ih]
    obtain ⟨cur, ps, path⟩ := w
    cases ps with
    | nil => rfl
    | cons p ps => exact headOf_congr (f := p.append cur.close) (g := p) rfl rfl ps

theorem headOf_enterPath (ok : Str → Dict Str → Bool) (fs : List Str) (w w' : Writer) (h : enterPath ok fs w = .ok w') :
    headOf w'.cur w'.parents = headOf w.cur w.parents := by
  induction fs generalizing w with
  | nil => simp only [enterPath] at h; cases h; rfl
  | cons f fs ih =>
    simp only [enterPath] at h
    split at h
    · cases h
    · split at h
      · rw [ih _ h]; rfl
      · cases h

theorem headOf_requirePath (ok : Str → Dict Str → Bool) (req : List Str) (w w' : Writer) (h : requirePath ok req w = .ok w') :
    headOf w'.cur w'.parents = headOf w.cur w.parents := by
  unfold requirePath at h
  split at h
  · cases h; rfl
  · rw [headOf_enterPath ok _ _ _ h]
    exact headOf_leaveN _ w

theorem headOf_appendText (w : Writer) (s : Str) :
    headOf (w.appendText s).cur (w.appendText s).parents = headOf w.cur w.parents :=
  headOf_congr (frame_appendText_tag _ _).1 (frame_appendText_tag _ _).2 _

theorem headOf_flushPending (cfg : WriteCfg) (req : List Str) (ss : List Str) (w w' : Writer)
    (h : flushPending cfg req ss w = .ok w') : headOf w'.cur w'.parents = headOf w.cur w.parents := by
  induction ss generalizing w with
  | nil => simp only [flushPending] at h; cases h; rfl
  | cons s ss ih =>
    simp only [flushPending] at h
    split at h
    · cases h
    · next w1 h1 => rw [ih _ h, headOf_appendText, headOf_requirePath _ _ _ _ h1]

theorem headOf_writeToken (cfg : WriteCfg) (st st' : WState) (t : Tok) (h : writeToken cfg st t = .ok st') :
    headOf st'.w.cur st'.w.parents = headOf st.w.cur st.w.parents := by
  unfold writeToken at h
  simp only at h
  split at h
  · cases h; rfl
  · split at h
    · cases h
    · next w1 h1 =>
      split at h
      · cases h
      · next w2 h2 =>
        split at h
        · cases h
        · next w3 h3 =>
          cases h
          rw [headOf_appendText, headOf_requirePath _ _ _ _ h3, headOf_flushPending _ _ _ _ _ h2]
          split at h1
          · exact headOf_requirePath _ _ _ _ h1
          · split at h1
            · exact headOf_requirePath _ _ _ _ h1
            · split at h1
              · exact headOf_requirePath _ _ _ _ h1
              · cases h1; rfl

theorem headOf_writeTokens (cfg : WriteCfg) (ts : List Tok) (st st' : WState) (h : writeTokens cfg st ts = .ok st') :
    headOf st'.w.cur st'.w.parents = headOf st.w.cur st.w.parents := by
  induction ts generalizing st with
  | nil => simp only [writeTokens] at h; cases h; rfl
  | cons t ts ih =>
    simp only [writeTokens] at h
    split at h
    · cases h
    · next st1 h1 => rw [ih _ h, headOf_writeToken cfg st st1 t h1]

theorem headOf_writeLines (cfg : WriteCfg) (ls : List (List Tok)) (first : Bool) (st st' : WState)
    (h : writeLines cfg first st ls = .ok st') : headOf st'.w.cur st'.w.parents = headOf st.w.cur st.w.parents := by
  induction ls generalizing st first with
  | nil => simp only [writeLines] at h; cases h; rfl
  | cons l ls ih =>
    simp only [writeLines] at h
    split at h
    · cases h
    · next st1 h1 =>
      rw [ih _ _ h, headOf_writeTokens cfg l _ st1 h1]
      split
      · rfl
      · exact headOf_congr (f := st.w.cur.append lbElem) (g := st.w.cur) rfl rfl _

theorem linesToTei_head (cfg : WriteCfg) (c f : Frame) (lines : List (List Tok)) (h : linesToTei cfg c lines = .ok f) :
    f.tag = c.tag ∧ f.attrib = c.attrib := by
  unfold linesToTei at h
  split at h
  · cases h
  · next st hst =>
    split at h
    · cases h
    · next w hw =>
      cases h
      have h1 := headOf_writeLines cfg lines true _ st hst
      have h2 := headOf_flushPending cfg [] _ _ _ hw
      have h3 := headOf_leaveN w.parents.length w
      have h5 : (w.leaveN w.parents.length).parents = [] := by
        obtain ⟨_, _, _, _, h5⟩ := leaveN_spec w.parents.length w
        rw [h5, List.drop_length]
      rw [h5] at h3
      have h4 : (w.finish.tag, w.finish.attrib) = (c.tag, c.attrib) := h3.trans (h2.trans h1)
      exact ⟨congrArg Prod.fst h4, congrArg Prod.snd h4⟩

theorem dropFinalEmpty_eq_nil (ls : List Str) (h : Spec.dropFinalEmpty ls = []) : ls = [] ∨ ls = [[]] := by
  unfold Spec.dropFinalEmpty at h
  by_cases hg : ls.getLast? = some []
  · rw [if_pos hg] at h
    obtain ⟨init, rfl⟩ := List.getLast?_eq_some_iff.1 hg
    rw [List.dropLast_concat] at h
    subst h
    exact .inr rfl
  · rw [if_neg hg] at h
    exact .inl h

/-- Splitting a stream that is not empty gives a line even without a final empty line. -/
theorem dropFinalEmpty_ne_nil (r : List (Option Char)) (h : r ≠ []) : Spec.dropFinalEmpty (Spec.splitBreaks r) ≠ [] := by
  intro h0
  have hl := splitBreaks_length r
  have hf := splitBreaks_flatten r
  rcases dropFinalEmpty_eq_nil _ h0 with h1 | h1
  · rw [h1] at hl; simp at hl
  · rw [h1] at hl hf
    cases r with
    | nil => exact h rfl
    | cons x r =>
      cases x with
      | none => simp at hl
      | some c => simp at hf

theorem findAll_replaceChild (new : Elem) (t : Str) (ts : List Str)
    (ih : ∀ (e : Elem) (c : Elem) (rest : List Elem), findAll ts e = c :: rest → new.tag = c.tag →
      ∃ e', replaceFirst (fun _ => new) ts e = some e' ∧ findAll ts e' = new :: rest ∧ e'.tag = e.tag)
    (hnone : ∀ e, findAll ts e = [] → replaceFirst (fun _ => new) ts e = none) (cs : List Elem) (c : Elem) (rest : List Elem)
    (h : (cs.filter (fun c => c.tag = t)).flatMap (findAll ts) = c :: rest) (ht : new.tag = c.tag) :
    ∃ cs', replaceChild t (replaceFirst (fun _ => new) ts) cs = some cs' ∧
      (cs'.filter (fun c => c.tag = t)).flatMap (findAll ts) = new :: rest := by
  induction cs with
  | nil => cases h
  | cons d cs ihc =>
    by_cases hd : d.tag = t
    · simp only [List.filter_cons, hd, decide_true, if_true, List.flatMap_cons, replaceChild] at h ⊢
      cases hf : findAll ts d with
      | nil =>
        rw [hf, List.nil_append] at h
        obtain ⟨cs', h1, h2⟩ := ihc h
        refine ⟨d :: cs', ?_, ?_⟩
        · rw [hnone d hf, h1]; rfl
        · simp only [List.filter_cons, hd, decide_true, if_true, List.flatMap_cons, hf, List.nil_append, h2]
      | cons x xs =>
        rw [hf, List.cons_append, List.cons.injEq] at h
        obtain ⟨e', h1, h2, h3⟩ := ih d x xs hf (by rw [ht, h.1])
        refine ⟨e' :: cs, ?_, ?_⟩
        · rw [h1]
        · simp only [List.filter_cons, h3, hd, decide_true, if_true, List.flatMap_cons, h2, List.cons_append, h.2]
    · simp only [List.filter_cons, hd, decide_false, Bool.false_eq_true, if_false, replaceChild] at h ⊢
      obtain ⟨cs', h1, h2⟩ := ihc h
      refine ⟨d :: cs', ?_, ?_⟩
      · rw [h1]; rfl
      · simp only [List.filter_cons, hd, decide_false, Bool.false_eq_true, if_false, h2]

theorem findAll_replaceFirst (new : Elem) (path : List Str) : ∀ (e c : Elem) (rest : List Elem), findAll path e = c :: rest → new.tag = c.tag →
    ∃ e', replaceFirst (fun _ => new) path e = some e' ∧ findAll path e' = new :: rest ∧ e'.tag = e.tag := by
  induction path with
  | nil =>
    intro e c rest h ht
    simp only [findAll, List.cons.injEq] at h
    exact ⟨new, rfl, by simp [findAll, h.2], by rw [ht, h.1]⟩
  | cons t ts ih =>
    intro e c rest h ht
    obtain ⟨tg, a, x, cs, tl⟩ := e
    simp only [findAll, replaceFirst, Elem.children] at h ⊢
    obtain ⟨cs', h1, h2⟩ := findAll_replaceChild new t ts ih (fun e => (replaceFirst_text new ts e).2) cs c rest h ht
    exact ⟨.mk tg a x cs' tl, by rw [h1]; rfl, h2, rfl⟩

end Verif
