/-
The functions which split and replace text in the model do what the regular expressions of the code do: for each text they
agree with `split`, `sub` and `finditer` for the expression written in the code.
-/
import Verif.Lemmas.RegexAll
import Verif.Lemmas.Tokenize
import Verif.Lemmas.JatsText
import Verif.Lemmas.TargetAnnotations
import Verif.Model.ToolPaths
import Verif.Model.SimpleMatching
import Verif.Model.TeiWrite
import Verif.Lemmas.TargetFile

namespace Verif
open Spec

/-! ### `(\W)` -/

theorem hits_nonWord (cc : CharClass) : Hits cc (nonWordRe cc) (fun _ v => match v with
    | c :: _ => if cc.isWord c then none else some 1
    | [] => none) := by
  refine Hits.of_fits (fun u v h x v' e hf => ?_) (fun u v n h => ?_)
  · obtain ⟨c, rfl, hc⟩ := Re.fits_chr.1 hf
    subst e
    simp only [List.singleton_append, Bool.not_eq_true'] at h hc
    rw [hc] at h
    cases h
  · cases v with
    | nil => cases h
    | cons c v =>
      simp only at h
      split at h
      · cases h
      · next hc =>
        cases h
        refine ⟨Nat.one_pos, by simp, Re.fits_chr.2 ⟨c, rfl, by simpa using hc⟩, fun x v' e hf => ?_⟩
        obtain ⟨d, rfl, _⟩ := Re.fits_chr.1 hf
        rfl

theorem splitNonWord_cons (cc : CharClass) (s : Str) : ∃ w ws, splitNonWord cc s = w :: ws := by
  induction s with
  | nil => exact ⟨[], [], rfl⟩
  | cons c s ih =>
    obtain ⟨w, ws, h⟩ := ih
    rw [splitNonWord, h]
    simp only
    split
    · exact ⟨_, _, rfl⟩
    · exact ⟨_, _, rfl⟩

/-- Texts are split into tokens by the expression of the code (C04). -/
theorem C04_pattern (cc : CharClass) (s : Str) : splitNonWord cc s = (nonWordRe cc).splitGroup cc s := by
  refine ((hits_nonWord cc).split_eq (fun _ v => splitNonWord cc v) (fun _ => rfl) (fun u c v h w ws hw => ?_)
    (fun u v n h => ?_) s).symm
  · simp only at h
    split at h
    · next hc =>
      rw [splitNonWord, hw]
      simp only
      rw [if_pos hc]
    · cases h
  · cases v with
    | nil => cases h
    | cons c v =>
      simp only at h
      split at h
      · cases h
      · next hc =>
        cases h
        obtain ⟨w, ws, hw⟩ := splitNonWord_cons cc v
        rw [splitNonWord, hw]
        simp only
        rw [if_neg hc]
        simp [hw]

/-! ### `\bname:` -/

theorem hits_namespace (cc : CharClass) (name : Str) (hn : startsInWord cc name = true) :
    Hits cc (namespaceRe name) (fun u v =>
      if startsWith (name ++ c!":") v && !(u.getLast?.any cc.isWord) then some (name.length + 1) else none) := by
  have hany : ∀ u : Str, u.getLast?.any cc.isWord = endsInWord cc u := by
    intro u
    unfold endsInWord
    cases u.getLast? <;> rfl
  have hw : ∀ t : Str, startsInWord cc (name ++ c!":" ++ t) = true := by
    intro t
    unfold startsInWord at hn ⊢
    cases name with
    | nil => cases hn
    | cons c name => exact hn
  have key : ∀ u x v', (namespaceRe name).Fits cc u x v' ↔ x = name ++ c!":" ∧ endsInWord cc u = false := by
    intro u x v'
    unfold namespaceRe
    rw [Re.fits_seq]
    constructor
    · rintro ⟨y, z, rfl, h1, h2⟩
      obtain ⟨rfl, hb⟩ := Re.fits_wordB.1 h1
      have hz := ((sameLetters_exactly _ _).1 (Re.fits_lit.1 h2)).symm
      subst hz
      rw [hw] at hb
      exact ⟨rfl, by simpa using hb⟩
    · rintro ⟨rfl, hu⟩
      refine ⟨[], _, rfl, Re.fits_wordB.2 ⟨rfl, ?_⟩, Re.fits_lit.2 ((sameLetters_exactly _ _).2 rfl)⟩
      show endsInWord cc u ≠ startsInWord cc (name ++ c!":" ++ v')
      rw [hw, hu]
      exact Bool.false_ne_true
  refine Hits.of_fits (fun u v h x v' e hf => ?_) (fun u v n h => ?_)
  · obtain ⟨rfl, hu⟩ := (key _ _ _).1 hf
    subst e
    rw [hany, hu, startsWith_append] at h
    cases h
  · split at h
    · next hc =>
      cases h
      rw [Bool.and_eq_true, hany] at hc
      have hs := startsWith_drop hc.1
      have hl : (name ++ c!":").length = name.length + 1 := by simp
      rw [hl] at hs
      refine ⟨Nat.succ_pos _, ?_, (key _ _ _).2 ⟨?_, by simpa using hc.2⟩, fun x v' _ hf => ?_⟩
      · rw [hs, List.length_append, hl]; omega
      · rw [hs, ← hl, List.take_left]
      · rw [((key _ _ _).1 hf).1, hl]
    · cases h

theorem resolveNamespaceAux_skip (cc : CharClass) (name url : Str) : ∀ (n : Nat) (u v : Str), n ≤ v.length →
    resolveNamespaceAux cc name url u.getLast? n v = resolveNamespaceAux cc name url (u ++ v.take n).getLast? 0 (v.drop n) := by
  intro n
  induction n with
  | zero => intro u v _; simp
  | succ n ih =>
    intro u v h
    cases v with
    | nil => cases h
    | cons c v =>
      rw [resolveNamespaceAux]
      have := ih (u ++ [c]) v (by simpa using h)
      rw [List.getLast?_concat, List.append_assoc, List.singleton_append] at this
      rw [this, List.take_succ_cons, List.drop_succ_cons]

/-- The prefix of a name space is replaced by what the expression of the code replaces (C108). -/
theorem C108_pattern (cc : CharClass) (name url : Str) (hn : startsInWord cc name = true) (s : Str) :
    resolveNamespaceAux cc name url none 0 s = (namespaceRe name).sub cc (fun _ => c!"{" ++ url ++ c!"}") s := by
  refine ((hits_namespace cc name hn).sub_eq _ (fun u v => resolveNamespaceAux cc name url u.getLast? 0 v) (fun u => ?_)
    (fun u c v h => ?_) (fun u v n h => ?_) s).symm
  · simp only [resolveNamespaceAux]
  · split at h
    · cases h
    · next hc => rw [resolveNamespaceAux, if_neg hc, List.getLast?_concat]
  · split at h
    · next hc =>
      cases h
      have hl := startsWith_drop (Bool.and_eq_true_iff.1 hc).1
      have hlen : name.length + 1 ≤ v.length := by
        rw [hl, List.length_append, List.length_append]; simp
      cases v with
      | nil => cases hlen
      | cons c v =>
        rw [resolveNamespaceAux, if_pos hc]
        congr 1
        have := resolveNamespaceAux_skip cc name url name.length (u ++ [c]) v (by simpa using hlen)
        rw [List.getLast?_concat, List.append_assoc, List.singleton_append] at this
        rw [this, List.take_succ_cons, List.drop_succ_cons]
    · cases h

/-! ### `{([^}]+)}` -/

theorem takeWhile_brace {x : Str} (hx : ∀ c ∈ x, (decide (c ≠ '}')) = true) (v : Str) :
    (x ++ '}' :: v).takeWhile (fun x => !decide (x = '}')) = x ∧ (x ++ '}' :: v).dropWhile (fun x => !decide (x = '}')) = '}' :: v := by
  have : ∀ c ∈ x, (fun x => !decide (x = '}')) c = true := fun c hc => by simpa using hx c hc
  rw [List.takeWhile_append_of_pos this, List.dropWhile_append_of_pos this]
  simp

/-- The length of a placeholder at the start of a text. -/
def placeholderLength : Str → Option Nat
  | [] => none
  | c :: s =>
    let name := s.takeWhile (fun x => !decide (x = '}'))
    let rest := s.dropWhile (fun x => !decide (x = '}'))
    if c = '{' ∧ name ≠ [] ∧ rest ≠ [] then some (name.length + 2) else none

theorem fits_placeholder {cc : CharClass} {u x v : Str} :
    placeholderRe.Fits cc u x v ↔ ∃ n, x = '{' :: n ++ ['}'] ∧ n ≠ [] ∧ ∀ c ∈ n, decide (c ≠ '}') = true := by
  unfold placeholderRe
  simp only [Re.fits_seq, Re.fits_lit, sameLetters_exactly, Re.fits_plus]
  constructor
  · rintro ⟨_, _, rfl, rfl, n, _, rfl, ⟨h1, h2⟩, rfl⟩
    exact ⟨n, rfl, h1, h2⟩
  · rintro ⟨n, rfl, h1, h2⟩
    exact ⟨['{'], n ++ ['}'], rfl, rfl, n, ['}'], rfl, ⟨h1, h2⟩, rfl⟩

theorem placeholder_rest {s : Str} (h : s.dropWhile (fun x => !decide (x = '}')) ≠ []) :
    ∃ v, s = s.takeWhile (fun x => !decide (x = '}')) ++ '}' :: v ∧ s.dropWhile (fun x => !decide (x = '}')) = '}' :: v := by
  cases hd : s.dropWhile (fun x => !decide (x = '}')) with
  | nil => exact absurd hd h
  | cons c v =>
    have hc := List.head_dropWhile_not (fun x => !decide (x = '}')) (l := s) (by rw [hd]; exact List.cons_ne_nil _ _)
    simp only [hd, List.head_cons, Bool.not_eq_false', decide_eq_true_eq] at hc
    subst hc
    refine ⟨v, ?_, rfl⟩
    rw [← hd, List.takeWhile_append_dropWhile]

theorem hits_placeholder (cc : CharClass) : Hits cc placeholderRe (fun _ v => placeholderLength v) := by
  refine Hits.of_fits (fun u v h x v' e hf => ?_) (fun u v n h => ?_)
  · obtain ⟨n, rfl, h1, h2⟩ := fits_placeholder.1 hf
    subst e
    have := takeWhile_brace h2 v'
    simp only [List.cons_append, List.append_assoc, placeholderLength] at h
    rw [if_pos] at h
    · cases h
    · simp only [List.nil_append]
      rw [this.1, this.2]
      exact ⟨trivial, h1, by simp⟩
  · cases v with
    | nil => cases h
    | cons c s =>
      simp only [placeholderLength] at h
      split at h
      · next hc =>
        obtain ⟨rfl, h1, h2⟩ := hc
        obtain ⟨w, e, _⟩ := placeholder_rest h2
        generalize hname : s.takeWhile (fun x => !decide (x = '}')) = name at *
        have hp : ∀ c ∈ name, decide (c ≠ '}') = true := by
          intro c hc
          rw [← hname] at hc
          have := List.all_takeWhile (l := s) (p := fun x => !decide (x = '}'))
          simpa using List.all_eq_true.1 this c hc
        cases h
        subst e
        have ht : ('{' :: (name ++ '}' :: w)) = ('{' :: name ++ ['}']) ++ w := by simp
        have hl : ('{' :: name ++ ['}']).length = name.length + 2 := by simp
        refine ⟨Nat.succ_pos _, by rw [ht, List.length_append, hl]; omega, ?_, fun x v' e hf => ?_⟩
        · rw [ht, ← hl, List.take_left]
          exact fits_placeholder.2 ⟨name, rfl, h1, hp⟩
        · obtain ⟨n', rfl, _, h4⟩ := fits_placeholder.1 hf
          have e' : name ++ '}' :: w = n' ++ '}' :: v' := by simpa using e
          have t1 := (takeWhile_brace hp w).1
          rw [e', (takeWhile_brace h4 v').1] at t1
          rw [t1, hl]
      · cases h

theorem resolvePlaceholders_enough (f : Str → Str) : ∀ (n : Nat) (s : Str), s.length ≤ n →
    resolvePlaceholders f n s = resolvePlaceholders f s.length s := by
  intro n
  induction n using Nat.strongRecOn with
  | _ n ih =>
    intro s hs
    cases s with
    | nil => cases n <;> rfl
    | cons c s =>
      obtain ⟨m, rfl⟩ : ∃ m, n = m + 1 := ⟨n - 1, by simp at hs; omega⟩
      have hs : s.length ≤ m := by simpa using hs
      have hd : ((s.dropWhile (fun x => !decide (x = '}'))).drop 1).length ≤ s.length := by
        have := (List.dropWhile_sublist (fun x => !decide (x = '}')) (l := s)).length_le
        rw [List.length_drop]; omega
      rw [List.length_cons, resolvePlaceholders, resolvePlaceholders]
      rw [ih m (Nat.lt_succ_self _) s hs, ih m (Nat.lt_succ_self _) _ (Nat.le_trans hd hs)]
      rcases Nat.lt_or_ge s.length (m + 1) with hlt | hge
      · rw [ih s.length hlt _ hd]
      · omega

/-- Placeholders are replaced where the expression of the code matches, by what is made of the text within the braces (C64). -/
theorem C64_pattern (cc : CharClass) (f : Str → Str) (s : Str) :
    resolvePlaceholders f s.length s = placeholderRe.sub cc (fun m => f (m.tail.dropLast)) s := by
  refine ((hits_placeholder cc).sub_eq _ (fun _ v => resolvePlaceholders f v.length v) (fun _ => rfl) (fun u c v h => ?_)
    (fun u v n h => ?_) s).symm
  · simp only [placeholderLength] at h
    split at h
    · cases h
    · next hc =>
      rw [List.length_cons, resolvePlaceholders]
      rw [if_neg hc]
  · cases v with
    | nil => cases h
    | cons c s =>
      simp only [placeholderLength] at h
      split at h
      · next hc =>
        cases h
        rw [List.length_cons, resolvePlaceholders]
        rw [if_pos hc]
        obtain ⟨w, e, e2⟩ := placeholder_rest hc.2.2
        obtain ⟨rfl, _, _⟩ := hc
        rw [e2]
        generalize hname : s.takeWhile (fun x => !decide (x = '}')) = name at *
        subst e
        have ht : ('{' :: (name ++ '}' :: w)) = ('{' :: name ++ ['}']) ++ w := by simp
        have hl : ('{' :: name ++ ['}']).length = name.length + 2 := by simp
        rw [ht, ← hl, List.take_left, List.drop_left]
        congr 1
        · simp
        · rw [List.drop_one, List.tail_cons]
          exact resolvePlaceholders_enough f _ w (by simp; omega)
      · cases h

/-! ### `https?://` -/

theorem fits_url {cc : CharClass} {u x v : Str} : urlRe.Fits cc u x v ↔ x = c!"https://" ∨ x = c!"http://" := by
  unfold urlRe
  simp only [Re.fits_seq, Re.fits_lit, sameLetters_exactly]
  constructor
  · rintro ⟨_, _, rfl, rfl, y, z, rfl, h, rfl⟩
    rw [Re.fits_opt (by simp [Re.fits_lit, sameLetters_exactly])] at h
    rcases h with rfl | h
    · exact .inr rfl
    · rw [Re.fits_lit, sameLetters_exactly] at h
      subst h
      exact .inl rfl
  · rintro (rfl | rfl)
    · refine ⟨_, c!"s://", rfl, rfl, c!"s", _, rfl, ?_, rfl⟩
      rw [Re.fits_opt (by simp [Re.fits_lit, sameLetters_exactly]), Re.fits_lit, sameLetters_exactly]
      exact .inr rfl
    · refine ⟨_, c!"://", rfl, rfl, [], _, rfl, ?_, rfl⟩
      rw [Re.fits_opt (by simp [Re.fits_lit, sameLetters_exactly])]
      exact .inl rfl

theorem hits_url (cc : CharClass) : Hits cc urlRe (fun _ v =>
    if startsWith c!"https://" v then some 8 else if startsWith c!"http://" v then some 7 else none) := by
  have clash : ∀ s t : Str, c!"https://" ++ s ≠ c!"http://" ++ t := by
    intro s t h
    have := congrArg (fun l : Str => l[4]?) h
    simp at this
  refine Hits.of_fits (fun u v h x v' e hf => ?_) (fun u v n h => ?_)
  · subst e
    rcases fits_url.1 hf with rfl | rfl
    · rw [startsWith_append, if_pos rfl] at h; cases h
    · rw [startsWith_append, if_pos rfl] at h
      split at h <;> cases h
  · split at h
    · next h1 =>
      cases h
      have e := startsWith_drop h1
      rw [e]
      refine ⟨Nat.succ_pos _, by simp, fits_url.2 (.inl rfl), fun x v' e' hf => ?_⟩
      rcases fits_url.1 hf with rfl | rfl
      · rfl
      · exact absurd e' (clash _ _)
    · split at h
      · next h1 =>
        cases h
        have e := startsWith_drop h1
        rw [e]
        refine ⟨Nat.succ_pos _, by simp, fits_url.2 (.inr rfl), fun x v' e' hf => ?_⟩
        rcases fits_url.1 hf with rfl | rfl
        · exact absurd e'.symm (clash _ _)
        · rfl
      · cases h

/-- The text of a link is split at the matches of the expression of the code (C115). -/
theorem C115_pattern (cc : CharClass) (s : Str) : urlStarts 0 0 s = (urlRe.finditer cc s).map (·.1) := by
  refine ((hits_url cc).starts_eq (fun u v => urlStarts 0 u.length v) (fun _ => rfl) (fun u c v h => ?_) (fun u v n h => ?_) s).symm
  · split at h
    · cases h
    · next h1 =>
      split at h
      · cases h
      · next h2 =>
        rw [urlStarts, if_neg h1, if_neg h2, List.length_append, List.length_singleton]
  · split at h
    · next h1 =>
      cases h
      have e := startsWith_drop h1
      generalize v.drop (c!"https://").length = w at e
      subst e
      show urlStarts 0 u.length ('h' :: (c!"ttps://" ++ w)) = _
      rw [urlStarts, if_pos (show startsWith c!"https://" ('h' :: (c!"ttps://" ++ w)) = true from h1), urlStarts_skip 7 _ c!"ttps://" w rfl]
      simp
    · next h0 =>
      split at h
      · next h1 =>
        cases h
        have e := startsWith_drop h1
        generalize v.drop (c!"http://").length = w at e
        subst e
        show urlStarts 0 u.length ('h' :: (c!"ttp://" ++ w)) = _
        rw [urlStarts, if_neg (show ¬ startsWith c!"https://" ('h' :: (c!"ttp://" ++ w)) = true from h0),
          if_pos (show startsWith c!"http://" ('h' :: (c!"ttp://" ++ w)) = true from h1), urlStarts_skip 6 _ c!"ttp://" w rfl]
        simp
      · cases h

/-! ### `(?<!\{[^}]*)/` -/

/-- A brace is open at the end of a text. -/
def braceOpen : Bool → Str → Bool
  | b, [] => b
  | b, c :: s => braceOpen (if c = '{' then true else if c = '}' then false else b) s

theorem braceOpen_append (b : Bool) (s t : Str) : braceOpen b (s ++ t) = braceOpen (braceOpen b s) t := by
  induction s generalizing b with
  | nil => rfl
  | cons c s ih => exact ih _

theorem braceOpen_iff (u : Str) : ∀ b, braceOpen b u = true ↔
    (∃ x y, u = x ++ '{' :: y ∧ ∀ c ∈ y, decide (c ≠ '}') = true) ∨ b = true ∧ ∀ c ∈ u, decide (c ≠ '}') = true := by
  induction u with
  | nil => intro b; simp [braceOpen]
  | cons d u ih =>
    intro b
    rw [braceOpen, ih]
    constructor
    · rintro (⟨x, y, rfl, h⟩ | ⟨h1, h2⟩)
      · exact .inl ⟨d :: x, y, rfl, h⟩
      · split at h1
        · next hd => subst hd; exact .inl ⟨[], u, rfl, h2⟩
        · split at h1
          · cases h1
          · next hd =>
            refine .inr ⟨h1, fun c hc => ?_⟩
            rcases List.mem_cons.1 hc with rfl | hc
            · simpa using hd
            · exact h2 c hc
    · rintro (⟨x, y, e, h⟩ | ⟨rfl, h2⟩)
      · cases x with
        | nil =>
          obtain ⟨rfl, rfl⟩ := List.cons.inj e
          exact .inr ⟨rfl, h⟩
        | cons a x =>
          obtain ⟨rfl, rfl⟩ := List.cons.inj e
          exact .inl ⟨x, y, rfl, h⟩
      · refine .inr ⟨?_, fun c hc => h2 c (List.mem_cons_of_mem _ hc)⟩
        have hd := h2 d List.mem_cons_self
        split
        · rfl
        · split
          · next h => rw [h] at hd; cases hd
          · rfl

theorem openBrace_endsAt (cc : CharClass) (u v : Str) : openBraceRe.endsAt cc (u ++ v) u.length = braceOpen false u := by
  rw [Bool.eq_iff_iff, braceOpen_iff]
  unfold Re.endsAt
  simp only [List.any_eq_true, List.mem_range, List.contains_iff_mem, Bool.false_eq_true, false_and, or_false]
  constructor
  · rintro ⟨k, hk, hm⟩
    have hk' : k ≤ (u ++ v).length := by rw [List.length_append]; omega
    have hd := (Re.mem_run hk').1 hm
    have hu : u = u.take k ++ u.drop k := (List.take_append_drop _ _).symm
    have hf : openBraceRe.Fits cc (u.take k) (u.drop k) v := by
      unfold Re.Fits
      rw [← hu, List.length_take, List.length_drop, Nat.min_eq_left (by omega), show k + (u.length - k) = u.length by omega]
      exact hd
    unfold openBraceRe at hf
    simp only [Re.fits_seq, Re.fits_lit, sameLetters_exactly, Re.fits_star] at hf
    obtain ⟨_, y, e, rfl, h⟩ := hf
    exact ⟨u.take k, y, by rw [← List.singleton_append (l := y), ← e, ← hu], h⟩
  · rintro ⟨x, y, rfl, h⟩
    refine ⟨x.length, by simp; omega, (Re.mem_run (by simp)).2 ?_⟩
    have hf : openBraceRe.Fits cc x ('{' :: y) v := by
      unfold openBraceRe
      simp only [Re.fits_seq, Re.fits_lit, sameLetters_exactly, Re.fits_star]
      exact ⟨['{'], y, rfl, rfl, h⟩
    unfold Re.Fits at hf
    rw [List.length_append]
    exact hf

theorem splitPathAux_walk (cc : CharClass) : ∀ (v u : Str) (pos : Nat), pos ≤ u.length →
    splitAtEach (u ++ v) pos ((List.range' u.length v.length).filter
      (fun i => decide ((u ++ v)[i]? = some '/') && !openBraceRe.endsAt cc (u ++ v) i)) =
      splitPathAux (braceOpen false u) (u.drop pos) v := by
  intro v
  induction v with
  | nil =>
    intro u pos _
    simp [splitAtEach, splitPathAux]
  | cons c v ih =>
    intro u pos hp
    rw [List.length_cons, List.range'_succ, List.filter_cons, openBrace_endsAt, List.getElem?_append_right (Nat.le_refl _),
      Nat.sub_self, splitPathAux]
    have hnext : ∀ pos', pos' ≤ u.length + 1 → splitAtEach (u ++ c :: v) pos' ((List.range' (u.length + 1) v.length).filter
        (fun i => decide ((u ++ c :: v)[i]? = some '/') && !openBraceRe.endsAt cc (u ++ c :: v) i)) =
        splitPathAux (if c = '{' then true else if c = '}' then false else braceOpen false u) ((u ++ [c]).drop pos') v := by
      intro pos' hp'
      have := ih (u ++ [c]) pos' (by rw [List.length_append]; exact hp')
      rw [braceOpen_append, List.append_assoc, List.length_append] at this
      exact this
    have hc0 : decide ((c :: v)[0]? = some '/') = decide (c = '/') := by simp
    rw [hc0]
    by_cases h : (decide (c = '/') && !braceOpen false u) = true
    · rw [if_pos h, if_pos h, splitAtEach]
      obtain ⟨h1, _⟩ := Bool.and_eq_true_iff.1 h
      have h1 := of_decide_eq_true h1
      subst h1
      rw [hnext (u.length + 1) (Nat.le_refl _), if_neg (by decide), if_neg (by decide)]
      congr 1
      · unfold reSlice
        rw [List.drop_append_of_le_length hp, List.take_append_of_le_length (by simp), List.take_of_length_le (by simp)]
      · congr 1
        exact List.drop_eq_nil_of_le (by simp)
    · rw [if_neg h, if_neg h, hnext pos (by omega), List.drop_append_of_le_length hp]

/-- Paths are split where the expression of the code matches (C56). -/
theorem C56_split_pattern (cc : CharClass) (s : Str) : splitPath s = splitAtEach s 0 (pathSlashes cc s) := by
  have := splitPathAux_walk cc s [] 0 (Nat.le_refl _)
  unfold splitPath pathSlashes
  rw [List.range_eq_range']
  exact this.symm

/-! ### `\p{Punct}` and `\s` -/

theorem Hits.one {cc : CharClass} {r : Re} {p : Char → Bool} (hr : ∀ u x v, r.Fits cc u x v ↔ ∃ c, x = [c] ∧ p c = true) :
    Hits cc r (fun _ v => match v with
      | c :: _ => if p c then some 1 else none
      | [] => none) := by
  refine Hits.of_fits (fun u v h x v' e hf => ?_) (fun u v n h => ?_)
  · obtain ⟨c, rfl, hc⟩ := (hr _ _ _).1 hf
    subst e
    simp only [List.singleton_append, hc] at h
    cases h
  · cases v with
    | nil => cases h
    | cons c v =>
      simp only at h
      split at h
      · next hc =>
        cases h
        refine ⟨Nat.one_pos, by simp, (hr _ _ _).2 ⟨c, rfl, hc⟩, fun x v' e hf => ?_⟩
        obtain ⟨d, rfl, _⟩ := (hr _ _ _).1 hf
        rfl
      · cases h

theorem sub_one {cc : CharClass} {r : Re} {p : Char → Bool} (hr : ∀ u x v, r.Fits cc u x v ↔ ∃ c, x = [c] ∧ p c = true) (s : Str) :
    r.sub cc (fun _ => []) s = s.filter (fun c => !p c) := by
  refine (Hits.one hr).sub_eq _ (fun _ v => v.filter (fun c => !p c)) (fun _ => rfl) (fun u c v h => ?_) (fun u v n h => ?_) s
  · simp only at h
    split at h
    · cases h
    · next hc => rw [List.filter_cons_of_pos (by simpa using hc)]
  · cases v with
    | nil => cases h
    | cons c v =>
      simp only at h
      split at h
      · next hc =>
        cases h
        rw [List.filter_cons_of_neg (by simpa using hc)]
        rfl
      · cases h

/-- What is removed from a DOI to compare its parts is what the expressions of the code match (C48). -/
theorem C48_removed_pattern (env : JatsTextEnv) (s : Str) :
    removePunct env s = (Re.chr env.isPunct).sub env.cc (fun _ => []) s ∧
    removePunctOrSpace env s = (Re.alt (.chr env.isPunct) (.chr env.cc.isSpace)).sub env.cc (fun _ => []) s := by
  refine ⟨(sub_one (p := env.isPunct) (fun _ _ _ => Re.fits_chr) s).symm,
    (sub_one (p := fun c => env.isPunct c || env.cc.isSpace c) (fun _ _ _ => ?_) s).symm⟩
  rw [Re.fits_alt, Re.fits_chr, Re.fits_chr]
  constructor
  · rintro (⟨c, h1, h2⟩ | ⟨c, h1, h2⟩)
    · exact ⟨c, h1, by simp [h2]⟩
    · exact ⟨c, h1, by simp [h2]⟩
  · rintro ⟨c, h1, h2⟩
    rcases Bool.or_eq_true_iff.1 h2 with h2 | h2
    · exact .inl ⟨c, h1, h2⟩
    · exact .inr ⟨c, h1, h2⟩

/-- The target of a link is its text without what the expression of the code matches, with a scheme if there is none (C115). -/
theorem C115_spaces_pattern (cc : CharClass) (text : Str) :
    fullCleanedUrl cc text =
      if strIn c!"://" ((Re.chr cc.isSpace).sub cc (fun _ => []) text) then (Re.chr cc.isSpace).sub cc (fun _ => []) text
      else c!"https://" ++ (Re.chr cc.isSpace).sub cc (fun _ => []) text := by
  rw [sub_one (p := cc.isSpace) (fun _ _ _ => Re.fits_chr) text]
  rfl

/-! ### `(.*)SUFFIX` -/

theorem itemsRe_run (cc : CharClass) (s : Str) : ∀ (is : List (Option Char)) (k : Nat),
    (itemsRe is).run cc s k = [] ∨ (itemsRe is).run cc s k = [k + is.length]
  | [], k => .inr rfl
  | i :: is, k => by
    simp only [itemsRe, Re.run]
    cases s[k]? with
    | none => exact .inl rfl
    | some c =>
      simp only
      split
      · rw [List.flatMap_cons, List.flatMap_nil, List.append_nil]
        rcases itemsRe_run cc s is (k + 1) with h | h
        · exact .inl h
        · exact .inr (by rw [h, List.length_cons]; congr 1; omega)
      · exact .inl rfl

theorem suffixRe_longest (cc : CharClass) (is : List (Option Char)) : (suffixRe is).LongestFirst cc := by
  intro s i
  simp only [suffixRe, Re.run]
  rw [List.pairwise_flatMap]
  refine ⟨fun k _ => ?_, ?_⟩
  · rcases itemsRe_run cc s is k with h | h
    · rw [h]; exact .nil
    · rw [h]; exact List.pairwise_singleton _ _
  · have := Re.longest_rep (cc := cc) (p := fun c => decide (c ≠ '\n')) (lo := 0) (hi := none) s i
    refine List.Pairwise.imp ?_ this
    intro a b hab x hx y hy
    rcases itemsRe_run cc s is a with h | h
    · rw [h] at hx; cases hx
    · rw [h] at hx
      rcases itemsRe_run cc s is b with h' | h'
      · rw [h'] at hy; cases hy
      · rw [h'] at hy
        rw [List.mem_singleton.1 hx, List.mem_singleton.1 hy]
        omega

theorem suffixAt_append : ∀ (is : List (Option Char)) (x v : Str), x.length = is.length → suffixAt is (x ++ v) = suffixAt is x
  | [], _, _, _ => by simp [suffixAt]
  | i :: is, [], _, h => by cases h
  | i :: is, c :: x, v, h => by
    rw [List.cons_append, suffixAt, suffixAt, suffixAt_append is x v (by simpa using h)]

theorem suffixAt_length : ∀ (is : List (Option Char)) (s : Str), suffixAt is s = true → is.length ≤ s.length
  | [], _, _ => Nat.zero_le _
  | _ :: _, [], h => by cases h
  | i :: is, c :: s, h => by
    rw [suffixAt, Bool.and_eq_true] at h
    have := suffixAt_length is s h.2
    simpa using this

theorem fits_items {cc : CharClass} : ∀ {is : List (Option Char)} {u x v : Str},
    (itemsRe is).Fits cc u x v ↔ x.length = is.length ∧ suffixAt is x = true := by
  intro is
  induction is with
  | nil =>
    intro u x v
    rw [itemsRe, Re.fits_empty]
    simp [suffixAt]
  | cons i is ih =>
    intro u x v
    simp only [itemsRe, Re.fits_seq, Re.fits_chr, ih]
    constructor
    · rintro ⟨_, z, rfl, ⟨c, rfl, hc⟩, h1, h2⟩
      exact ⟨by simp [h1], by rw [List.singleton_append, suffixAt, hc, h2]; rfl⟩
    · intro h
      cases x with
      | nil => simp at h
      | cons c x =>
        obtain ⟨h1, h2⟩ := h
        rw [suffixAt, Bool.and_eq_true] at h2
        exact ⟨[c], x, rfl, ⟨c, rfl, h2.1⟩, by simpa using h1, h2.2⟩

/-- The suffix follows a part of a line. -/
def LineThenSuffix (is : List (Option Char)) (v : Str) (k : Nat) : Prop :=
  k ≤ v.length ∧ (∀ c ∈ v.take k, decide (c ≠ '\n') = true) ∧ suffixAt is (v.drop k) = true

theorem fits_suffix {cc : CharClass} {is : List (Option Char)} {u x v : Str} :
    (suffixRe is).Fits cc u x v ↔ ∃ k, k + is.length = x.length ∧ LineThenSuffix is (x ++ v) k := by
  unfold suffixRe LineThenSuffix
  simp only [Re.fits_seq, Re.fits_star, fits_items]
  constructor
  · rintro ⟨y, z, rfl, h1, h2, h3⟩
    refine ⟨y.length, by simp [h2], by simp, ?_, ?_⟩
    · rw [List.append_assoc, List.take_left]; exact h1
    · rw [List.append_assoc, List.drop_left, suffixAt_append _ _ _ h2, h3]
  · rintro ⟨k, h0, h1, h2, h3⟩
    have hk : k ≤ x.length := by omega
    rw [List.take_append_of_le_length hk] at h2
    rw [List.drop_append_of_le_length hk, suffixAt_append _ _ _ (by rw [List.length_drop]; omega)] at h3
    exact ⟨x.take k, x.drop k, (List.take_append_drop _ _).symm, h2, by rw [List.length_drop]; omega, h3⟩

theorem lineThenSuffix_succ {is : List (Option Char)} {c : Char} {v : Str} {k : Nat} :
    LineThenSuffix is (c :: v) (k + 1) ↔ c ≠ '\n' ∧ LineThenSuffix is v k := by
  unfold LineThenSuffix
  simp only [List.length_cons, Nat.add_le_add_iff_right, List.take_succ_cons, List.drop_succ_cons, List.mem_cons]
  constructor
  · rintro ⟨h1, h2, h3⟩
    exact ⟨of_decide_eq_true (h2 c (.inl rfl)), h1, fun d hd => h2 d (.inr hd), h3⟩
  · rintro ⟨h0, h1, h2, h3⟩
    refine ⟨h1, fun d hd => ?_, h3⟩
    rcases hd with rfl | hd
    · exact decide_eq_true h0
    · exact h2 d hd

theorem greedyLen_spec (is : List (Option Char)) : ∀ v : Str,
    (∀ k, greedyLen is v = some k → LineThenSuffix is v k ∧ ∀ k', LineThenSuffix is v k' → k' ≤ k) ∧
    (greedyLen is v = none → ∀ k, ¬ LineThenSuffix is v k) := by
  intro v
  induction v with
  | nil =>
    rw [greedyLen]
    have h0 : ∀ k, LineThenSuffix is [] k ↔ k = 0 ∧ suffixAt is [] = true := by
      intro k
      unfold LineThenSuffix
      simp
    split
    · next h =>
      refine ⟨fun k e => ?_, fun e => by cases e⟩
      cases e
      exact ⟨(h0 0).2 ⟨rfl, h⟩, fun k' hk => Nat.le_of_eq ((h0 k').1 hk).1⟩
    · next h => exact ⟨fun k e => (by cases e), fun _ k hk => h ((h0 k).1 hk).2⟩
  | cons c v ih =>
    have hz : LineThenSuffix is (c :: v) 0 ↔ suffixAt is (c :: v) = true := by
      unfold LineThenSuffix
      simp
    rw [greedyLen]
    cases hg : (if c = '\n' then none else greedyLen is v) with
    | some m =>
      have hc : c ≠ '\n' := by rintro rfl; cases hg
      rw [if_neg hc] at hg
      obtain ⟨h1, h2⟩ := ih.1 m hg
      refine ⟨fun k e => ?_, fun e => by cases e⟩
      cases e
      refine ⟨lineThenSuffix_succ.2 ⟨hc, h1⟩, fun k' hk => ?_⟩
      cases k' with
      | zero => omega
      | succ k' => have := h2 k' (lineThenSuffix_succ.1 hk).2; omega
    | none =>
      have hno : ∀ k, ¬ LineThenSuffix is (c :: v) (k + 1) := by
        intro k hk
        obtain ⟨hc, hk⟩ := lineThenSuffix_succ.1 hk
        rw [if_neg hc] at hg
        exact ih.2 hg k hk
      simp only
      split
      · next h =>
        refine ⟨fun k e => ?_, fun e => by cases e⟩
        cases e
        refine ⟨hz.2 h, fun k' hk => ?_⟩
        cases k' with
        | zero => exact Nat.le_refl _
        | succ k' => exact absurd hk (hno k')
      · next h =>
        refine ⟨fun k e => (by cases e), fun _ k hk => ?_⟩
        cases k with
        | zero => exact h (hz.1 hk)
        | succ k => exact hno k hk

theorem hits_suffix (cc : CharClass) (is : List (Option Char)) (hne : is ≠ []) :
    Hits cc (suffixRe is) (fun _ v => (greedyLen is v).map (· + is.length)) := by
  have hpos : 0 < is.length := List.length_pos_iff.2 hne
  refine Hits.of_longest (suffixRe_longest cc is) (fun u v h x v' e hf => ?_) (fun u v n h => ?_)
  · obtain ⟨k, _, hk⟩ := fits_suffix.1 hf
    subst e
    exact (greedyLen_spec is _).2 (Option.map_eq_none_iff.1 h) k hk
  · obtain ⟨k, hk, rfl⟩ := Option.map_eq_some_iff.1 h
    obtain ⟨hl, hm⟩ := (greedyLen_spec is v).1 k hk
    have hlen := suffixAt_length _ _ hl.2.2
    have := hl.1
    rw [List.length_drop] at hlen
    refine ⟨by omega, by omega, fits_suffix.2 ⟨k, by rw [List.length_take]; omega, ?_⟩, fun x v' e hf => ?_⟩
    · rw [List.take_append_drop]; exact hl
    · obtain ⟨k', h1, h2⟩ := fits_suffix.1 hf
      rw [← e] at h2
      have := hm k' h2
      omega

theorem subSuffixLoop_hit {is : List (Option Char)} {ext s : Str} {n k : Nat} (h : greedyLen is s = some k) :
    subSuffixLoop is ext (n + 1) s = s.take k ++ ext ++ subSuffixLoop is ext n (s.drop (k + is.length)) := by
  rw [subSuffixLoop.eq_def]
  simp only [h]

theorem subSuffixLoop_skip {is : List (Option Char)} {ext : Str} {c : Char} {s : Str} {n : Nat} (h : greedyLen is (c :: s) = none) :
    subSuffixLoop is ext (n + 1) (c :: s) = c :: subSuffixLoop is ext n s := by
  rw [subSuffixLoop.eq_def]
  simp only [h]

theorem subSuffixLoop_enough (is : List (Option Char)) (hne : is ≠ []) (ext : Str) : ∀ (n : Nat) (s : Str), s.length < n →
    subSuffixLoop is ext n s = subSuffixLoop is ext (s.length + 1) s := by
  have hpos : 0 < is.length := List.length_pos_iff.2 hne
  intro n
  induction n using Nat.strongRecOn with
  | _ n ih =>
    intro s hs
    obtain ⟨m, rfl⟩ : ∃ m, n = m + 1 := ⟨n - 1, by omega⟩
    cases hg : greedyLen is s with
    | none =>
      cases s with
      | nil => rw [subSuffixLoop.eq_def, subSuffixLoop.eq_def]; simp only [hg]
      | cons c s =>
        rw [List.length_cons] at hs
        rw [subSuffixLoop_skip hg, subSuffixLoop_skip hg, ih m (Nat.lt_succ_self _) s (by omega)]
        rfl
    | some k =>
      rw [subSuffixLoop_hit hg, subSuffixLoop_hit hg]
      have hl := ((greedyLen_spec is s).1 k hg).1
      have hlen := suffixAt_length _ _ hl.2.2
      rw [List.length_drop] at hlen
      have := hl.1
      have hd : (s.drop (k + is.length)).length < s.length := by rw [List.length_drop]; omega
      rw [ih m (Nat.lt_succ_self _) _ (by omega), ih s.length hs _ hd]

/-- The name of the target file is what `re.sub` with the given expression makes of the name of the source file (C107). -/
theorem C107_sub_pattern (cc : CharClass) (is : List (Option Char)) (hne : is ≠ []) (ext s : Str) :
    subSuffix is ext s = (suffixRe is).sub cc (fun m => m.take (m.length - is.length) ++ ext) s := by
  refine ((hits_suffix cc is hne).sub_eq _ (fun _ v => subSuffixLoop is ext (v.length + 1) v) (fun u => ?_) (fun u c v h => ?_)
    (fun u v n h => ?_) s).symm
  · cases hg : greedyLen is [] with
    | none => rw [subSuffixLoop.eq_def]; simp only [hg]
    | some k =>
      have hl := ((greedyLen_spec is []).1 k hg).1
      have h1 := suffixAt_length _ _ hl.2.2
      have h2 := List.length_pos_iff.2 hne
      rw [List.length_drop, List.length_nil] at h1
      omega
  · rw [subSuffixLoop_skip (Option.map_eq_none_iff.1 h)]
    rfl
  · obtain ⟨k, hk, rfl⟩ := Option.map_eq_some_iff.1 h
    have hl := ((greedyLen_spec is v).1 k hk).1
    have hlen := suffixAt_length _ _ hl.2.2
    rw [List.length_drop] at hlen
    have := hl.1
    have hpos := List.length_pos_iff.2 hne
    rw [subSuffixLoop_hit hk, subSuffixLoop_enough is hne ext v.length _ (by rw [List.length_drop]; omega), List.length_take, List.take_take]
    congr 3
    omega

/-! ### Examples -/

example : (nonWordRe asciiClass).splitGroup asciiClass c!"ab, c" = [c!"ab", c!",", [], c!" ", c!"c"] := by decide +kernel

example : (namespaceRe c!"tei").sub asciiClass (fun _ => c!"{u}") c!"tei:a/xtei:b/tei:c" = c!"{u}a/xtei:b/{u}c" := by decide +kernel

example : placeholderRe.sub asciiClass (fun m => m.tail.dropLast ++ m.tail.dropLast) c!"a{b}{}c}{d" = c!"abb{}c}{d" := by decide +kernel

example : (urlRe.finditer asciiClass c!"a http://x https://y").map (·.1) = [2, 11] := by decide +kernel

example : pathSlashes asciiClass c!"{http://x}a/b/{c/d" = [11, 13] ∧
    splitAtEach c!"{http://x}a/b/{c/d" 0 [11, 13] = [c!"{http://x}a", c!"b", c!"{c/d"] := by decide +kernel

example : (Re.chr asciiClass.isSpace).sub asciiClass (fun _ => []) c!"a b\n c" = c!"abc" := by decide +kernel

example : (suffixRe [none, some 'x']).sub asciiClass (fun m => m.take (m.length - 2) ++ c!"!") c!"a.xb.x" = c!"a.xb!" := by decide +kernel

end Verif
