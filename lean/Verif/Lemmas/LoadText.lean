/-
Lemmas about the text of the tokens of a loaded document.
-/
import Verif.Lemmas.TeiLoad
import Verif.Lemmas.PostAnnotators

namespace Verif

/-- A predicate for tokens which holds for freshly created ones. -/
structure TokPred (cc : CharClass) (P : Tok → Prop) : Prop where
  fresh : ∀ s tag sub, P (toTextToken cc s tag sub)
  whitespace : ∀ t w, P t → P { t with whitespace := w }

def BufAll (P : Tok → Prop) (b : Buf) : Prop := ∀ t ∈ b.rev, P t

theorem bufAll_appendToken {cc : CharClass} {P : Tok → Prop} (hP : TokPred cc P) {b : Buf} (h : BufAll P b) (s : Str) :
    BufAll P (b.appendToken cc s) := by
  unfold Buf.appendToken BufAll
  unfold BufAll at h
  intro t ht
  rcases List.mem_cons.1 ht with rfl | ht
  · exact hP.fresh _ _ _
  · cases hb : b.rev with
    | nil => rw [hb] at ht; simp at ht
    | cons x xs =>
      rw [hb] at ht h
      rcases List.mem_cons.1 ht with rfl | ht
      · exact hP.whitespace _ _ (h x (by simp))
      · exact h t (List.mem_cons_of_mem _ ht)

theorem bufAll_appendText {cc : CharClass} {P : Tok → Prop} (hP : TokPred cc P) {b : Buf} (h : BufAll P b) (x : Option Str) :
    BufAll P (b.appendText cc x) := by
  cases x with
  | none => exact h
  | some s =>
    have hf : ∀ (ss : List Str) (b : Buf), BufAll P b → BufAll P (b.appendTokens cc ss) := by
      intro ss
      induction ss with
      | nil => exact fun _ h => h
      | cons s ss ih => exact fun b h => ih _ (bufAll_appendToken hP h s)
    simp only [Buf.appendText]
    split
    · exact h
    · exact hf _ _ h

theorem bufAll_flush {P : Tok → Prop} {b : Buf} (h : BufAll P b) : (∀ t ∈ b.flush.1, P t) ∧ BufAll P b.flush.2 := by
  refine ⟨fun t ht => h t (List.mem_reverse.1 ht), ?_⟩
  intro t ht
  cases ht

mutual
theorem extractElem_all {cc : CharClass} {P : Tok → Prop} (hP : TokPred cc P) (rp : List Str) (e : Elem) (path : List Str) (b : Buf)
    (hb : BufAll P b) (r : List (List Tok) × Buf) (h : extractElem cc rp e path b = .ok r) :
    (∀ l ∈ r.1, ∀ t ∈ l, P t) ∧ BufAll P r.2 := by
  match e with
  | .mk tg a x cs tl =>
    simp only [extractElem] at h
    split at h
    · cases h
    · next lines b3 hc =>
      cases h
      have h0 := extractChildren_all hP rp cs path _ (by
        apply bufAll_appendText hP
        split
        · split <;> exact hb
        · exact hb) _ hc
      refine ⟨h0.1, ?_⟩
      apply bufAll_appendText hP
      split <;> exact h0.2
theorem extractChildren_all {cc : CharClass} {P : Tok → Prop} (hP : TokPred cc P) (rp : List Str) (es : List Elem) (path : List Str) (b : Buf)
    (hb : BufAll P b) (r : List (List Tok) × Buf) (h : extractChildren cc rp es path b = .ok r) :
    (∀ l ∈ r.1, ∀ t ∈ l, P t) ∧ BufAll P r.2 := by
  match es with
  | [] => simp only [extractChildren] at h; cases h; exact ⟨by simp, hb⟩
  | .mk tag attrib text children tail :: es =>
    simp only [extractChildren] at h
    split at h
    · cases h
    · split at h
      · cases h
      · next h1 =>
        split at h
        · cases h
        · next h2 =>
          cases h
          have a1 := extractElem_all hP rp (.mk tag attrib text children tail) _ _ (by
            split
            · exact (bufAll_flush hb).2
            · exact hb) _ h1
          have a2 := extractChildren_all hP rp es path _ a1.2 _ h2
          refine ⟨?_, a2.2⟩
          intro l hl
          rw [List.mem_append, List.mem_append] at hl
          rcases hl with (hl | hl) | hl
          · split at hl
            · rw [List.mem_singleton] at hl
              subst hl
              exact (bufAll_flush hb).1
            · simp at hl
          · exact a1.1 l hl
          · exact a2.1 l hl
end

theorem extractContainersFrom_all {cc : CharClass} {P : Tok → Prop} (hP : TokPred cc P) (rp : List Str) (es : List Elem) (b : Buf)
    (hb : BufAll P b) (ls : List (List Tok)) (h : extractContainersFrom cc rp es b = .ok ls) : ∀ l ∈ ls, ∀ t ∈ l, P t := by
  induction es generalizing b ls with
  | nil => cases h; simp
  | cons e es ih =>
    simp only [extractContainersFrom] at h
    split at h
    · cases h
    · next h1 =>
      split at h
      · cases h
      · next h2 =>
        cases h
        have a1 := extractElem_all hP rp e [] b hb _ h1
        have a2 := ih _ (by
          split
          · exact a1.2
          · exact (bufAll_flush a1.2).2) _ h2
        intro l hl
        rw [List.mem_append, List.mem_append] at hl
        rcases hl with (hl | hl) | hl
        · exact a1.1 l hl
        · split at hl
          · simp at hl
          · rw [List.mem_singleton] at hl
            subst hl
            exact (bufAll_flush a1.2).1
        · exact a2 l hl

/-- In a loaded document, also after changing its tags, the text of a token which is not space is not blank. -/
theorem getText_loadDoc {cfg : DocCfg} {root : Elem} {d d' : Doc} (hl : loadDoc cfg root = .ok d) (hs : SameBut d d') :
    ∀ i ∈ d'.nonSpaceTokens, d'.getText cfg.cc i ≠ [] := by
  unfold loadDoc at hl
  split at hl
  · cases hl
  · next lines hx =>
    simp only [Except.ok.injEq] at hl
    have h0 : SameBut (Doc.ofLines lines) d := by
      rw [← hl]
      refine SameBut.trans ?_ (sameBut_resetCurrentTags _)
      split
      · exact sameBut_preserveCurrentTags _ _
      · exact .refl _
    have h := h0.trans hs
    have hall := extractContainersFrom_all (cc := cfg.cc) (P := fun t => t.isSpace = (strip cfg.cc t.text).isEmpty)
      ⟨fun _ _ _ => rfl, fun _ _ h => h⟩ _ _ _ (by intro t ht; cases ht) _ hx
    intro i hi
    rw [h.nonSpaceTokens, nonSpaceTokens_ofLines, List.mem_filter] at hi
    have hlt : i < lines.flatten.length := by
      have := hi.1
      rw [allTokens_ofLines] at this
      simpa using this
    have htok : (Doc.ofLines lines).tok i = lines.flatten[i] := by
      show lines.flatten.getD i _ = _
      rw [List.getD_eq_getElem?_getD, List.getElem?_eq_getElem hlt]; rfl
    obtain ⟨l, hl1, hl2⟩ := List.mem_flatten.1 (List.getElem_mem hlt)
    have := hall l hl1 _ hl2
    unfold Doc.getText Tok.strippedText
    rw [h.text, htok]
    intro hc
    have h2 := hi.2
    rw [htok, this, hc] at h2
    cases h2

end Verif
