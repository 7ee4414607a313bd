/-
Exact forms of C09 (when an element is continued), C52 (which outputs are the same), C56 (which elements and paths are given
back by parsing what has been formatted) and C110 (which files are copied unchanged).
-/
import Verif.Props.TagExpression
import Verif.Props.TeiWrite
import Verif.Props.Download
import Verif.Props.SourceFiles
import Verif.Spec.ExactForms

namespace Verif
open Spec Props

/-- **C56**, exactly: formatting a name with one attribute and parsing the expression gives back both if and only if no part is empty, the
name has no `[`, the name of the attribute no `=` and its value no line feed. -/
theorem C56_round_trip_exact (tag k v : Str) :
    (∃ s, nodeToTagExpression tag [(k, v)] = .ok s ∧ parseTagExpression s = .ok (tag, [(k, v)])) ↔
      tag ≠ [] ∧ '[' ∉ tag ∧ k ≠ [] ∧ '=' ∉ k ∧ v ≠ [] ∧ '\n' ∉ v := by
  constructor
  · rintro ⟨s, _, h⟩
    rw [C56_expression] at h
    generalize ha : [(k, v)] = attrib at h
    cases h with
    | name => cases ha
    | withAttribute _ at' k' v' lf ht hb hk he hv hn =>
      simp only [List.cons.injEq, Prod.mk.injEq, and_true] at ha
      obtain ⟨rfl, rfl⟩ := ha
      exact ⟨ht, hb, hk, he, hv, hn⟩
  · rintro ⟨ht, hb, hk, he, hv, hn⟩
    exact C56_round_trip_partial tag k v ht hb hk he hv hn

theorem openBrace_append (o : Bool) (s : Str) (c : Char) (o' : Bool) (h : openBrace o s = some o') :
    openBrace o (s ++ [c]) = if c = '/' ∧ o' = false then none else some (if c = '{' then true else if c = '}' then false else o') := by
  induction s generalizing o with
  | nil => cases h; rfl
  | cons x s ih =>
    rw [List.cons_append, openBrace]
    rw [openBrace] at h
    split at h
    · cases h
    · next hn => rw [if_neg hn]; exact ih _ h

theorem splitPathAux_ne_nil (s : Str) : ∀ (inside : Bool) (acc : Str), splitPathAux inside acc s ≠ [] := by
  induction s with
  | nil => intro _ _; simp [splitPathAux]
  | cons c s ih =>
    intro inside acc
    rw [splitPathAux]
    split
    · simp
    · exact ih _ _

theorem splitPathAux_components (s : Str) : ∀ (inside : Bool) (acc : Str), openBrace false acc = some inside →
    (∀ f ∈ (splitPathAux inside acc s).dropLast, openBrace false f = some false) ∧
    ∀ f, (splitPathAux inside acc s).getLast? = some f → (openBrace false f).isSome = true := by
  induction s with
  | nil =>
    intro inside acc h
    refine ⟨by simp [splitPathAux], ?_⟩
    intro f hf
    simp only [splitPathAux, List.getLast?_singleton, Option.some.injEq] at hf
    subst hf
    rw [h]; rfl
  | cons c s ih =>
    intro inside acc h
    rw [splitPathAux]
    by_cases hc : c = '/' ∧ inside = false
    · obtain ⟨rfl, rfl⟩ := hc
      simp only [decide_true, Bool.not_false, Bool.and_self, if_true]
      obtain ⟨h1, h2⟩ := ih false [] rfl
      have hne := splitPathAux_ne_nil s false []
      refine ⟨?_, ?_⟩
      · rw [List.dropLast_cons_of_ne_nil hne]
        intro f hf
        rcases List.mem_cons.1 hf with rfl | hf
        · exact h
        · exact h1 f hf
      · intro f hf
        rw [List.getLast?_cons] at hf
        cases hl : (splitPathAux false [] s).getLast? with
        | none => exact absurd (List.getLast?_eq_none_iff.1 hl) hne
        | some g => rw [hl] at hf; cases hf; exact h2 g hl
    · have : (decide (c = '/') && !inside) = false := by
        cases inside <;> simp_all
      rw [this]
      simp only [Bool.false_eq_true, if_false]
      apply ih
      rw [openBrace_append _ _ _ _ h, if_neg hc]

theorem slashesEnclosed_of_openBrace (s : Str) : ∀ o, openBrace o s = some false → slashesEnclosed o s = true := by
  induction s with
  | nil => intro o h; cases h; rfl
  | cons c s ih =>
    intro o h
    rw [openBrace] at h
    split at h
    · cases h
    · next hn =>
      rw [slashesEnclosed, ih _ h]
      cases o <;> simp_all

theorem splitPathAux_last (s : Str) : ∀ (o : Bool) (acc : Str), (openBrace o s).isSome = true → splitPathAux o acc s = [acc ++ s] := by
  induction s with
  | nil => intro o acc _; simp [splitPathAux]
  | cons c s ih =>
    intro o acc h
    rw [openBrace] at h
    split at h
    · cases h
    · next hn =>
      have : (decide (c = '/') && !o) = false := by
        cases o <;> simp_all
      rw [splitPathAux, this]
      simp only [Bool.false_eq_true, if_false]
      rw [ih _ _ h]
      simp

/-- **C56**, exactly: joining the components of a path and splitting the path gives back the components if and only if no component has a
slash outside of braces, and none but the last one leaves a brace open. -/
theorem C56_path_round_trip_exact (fs : List Str) :
    splitPath (joinWith c!"/" fs) = fs ↔
      fs ≠ [] ∧ (∀ f ∈ fs.dropLast, openBrace false f = some false) ∧ ∀ f, fs.getLast? = some f → (openBrace false f).isSome = true := by
  constructor
  · intro h
    have hc := splitPathAux_components (joinWith c!"/" fs) false [] rfl
    unfold splitPath at h
    rw [h] at hc
    refine ⟨?_, hc⟩
    rintro rfl
    exact splitPathAux_ne_nil _ _ _ h
  · rintro ⟨hne, h1, h2⟩
    unfold splitPath
    induction fs with
    | nil => exact absurd rfl hne
    | cons f fs ih =>
      cases fs with
      | nil => simpa [joinWith] using splitPathAux_last f false [] (h2 f rfl)
      | cons g gs =>
        rw [List.dropLast_cons_of_ne_nil (by simp)] at h1
        have e := (C56_aux_split false [] f (joinWith c!"/" (g :: gs)) (slashesEnclosed_of_openBrace f false (h1 f (by simp)))).1
        have h3 := ih (by simp) (fun x hx => h1 x (by simp [hx])) (fun x hx => h2 x (by rw [List.getLast?_cons, hx]; rfl))
        simp only [joinWith, List.append_assoc, List.nil_append] at e ⊢
        show splitPathAux false [] (f ++ '/' :: joinWith c!"/" (g :: gs)) = _
        rw [e, h3]

example : openBrace false c!"{http://www.tei-c.org/ns/1.0}note" = some false ∧ openBrace false c!"ref[@target=\"http://x\"]" = none ∧
    openBrace false c!"a{b/c" = some true := by decide +kernel

example : splitPath c!"{http://x}a/b" = [c!"{http://x}a", c!"b"] ∧ splitPath c!"a/{b/c" = [c!"a", c!"{b/c"] ∧
    splitPath c!"{a/b" ≠ [c!"{a", c!"b"] := by decide +kernel

/-! ### C09 -/

/-- **C09**, exactly: for a text token whose main path is that of the previous text token,
* it lies in the same main element if and only if it has no begin prefix, does not follow white space beginning the same tag, and its
  sub tag has no begin prefix unless its element lies inside the main element;
* if the whole path is the same, it lies in the same innermost element if and only if nothing begins.
So the begin prefix of a sub tag which is ignored starts a new main element (`C09_ignored_sub_tag_splits_element`). -/
theorem C09_exact (cfg : WriteCfg) (tag : Str) (lines : List (List Tok)) (f : Frame)
    (hlb : ∀ l ∈ lines, ∀ t ∈ l, blank cfg.cc t = false →
      ∀ g ∈ tokenPath cfg.mapping t, ∀ t a, parseTagExpression g = .ok (t, a) → t ≠ c!"lb")
    (h : linesToTei cfg ⟨tag, [], none, []⟩ lines = .ok f) :
    ∃ ps : List Piece,
      Spec.items f.close = ps.flatMap Piece.items ∧
      ps.filterMap (·.tok) = lines.flatten ∧
      ∀ before p post t, ps = before ++ p :: post → p.tok = some t → blank cfg.cc t = false → mainPath cfg.mapping t ≠ [] →
        ∀ q u mid, follows cfg.cc before q u mid →
          (mainPath cfg.mapping t = mainPath cfg.mapping u →
            (p.addr.take (mainPath cfg.mapping t).length = q.addr.take (mainPath cfg.mapping t).length ↔
              ¬ isBegin t ∧ ¬ beginOnSpace cfg.cc before t ∧
                (isSubBegin t → hasSub cfg.mapping t ∧ (mainPath cfg.mapping t).length < (subPath cfg.mapping t).length))) ∧
          (tokenPath cfg.mapping t = tokenPath cfg.mapping u →
            (p.addr = q.addr ↔ ¬ isBegin t ∧ ¬ beginOnSpace cfg.cc before t ∧ ¬ isSubBegin t)) := by
  obtain ⟨ps, h1, h2, _, h4, _⟩ := linesToTei_pieces cfg tag [] f lines hlb h
  refine ⟨ps, h1, h2, ?_⟩
  intro before p post t hs ht hb hne q u mid hfol
  have g := h4 before p post t hs ht hb
  have fresh : ∀ {a : List Nat}, freshElement before a → ¬ a <+: q.addr := by
    intro a hf
    obtain ⟨⟨pre, rfl⟩, hqt, hqb, _⟩ := hfol
    obtain ⟨c, hc⟩ : ∃ c, c ∈ u.text := by
      cases hu : u.text with
      | nil => rw [blank, hu] at hqb; cases hqb
      | cons c cs => exact ⟨c, by simp⟩
    refine hf ⟨q.addr, q.chain, some c⟩ (List.mem_flatMap.2 ⟨q, by simp, ?_⟩)
    rw [Piece.items, hqt]
    exact List.mem_map.2 ⟨c, hc, rfl⟩
  refine ⟨fun hm => ⟨fun he => ?_, fun ⟨a1, a2, a3⟩ => g.continues q u mid hfol a1 a2 hm a3⟩,
    fun hm => ⟨fun he => ?_, fun ⟨a1, a2, a3⟩ => g.subContinues q u mid hfol a1 a2 a3 hm⟩⟩
  · have hpre : p.addr.take (mainPath cfg.mapping t).length <+: q.addr := he ▸ List.take_prefix _ _
    refine ⟨fun hx => fresh (g.begins (.inl hx) hne) hpre, fun hx => fresh (g.begins (.inr hx) hne) hpre, fun hx => ?_⟩
    by_cases hsub : hasSub cfg.mapping t
    · refine ⟨hsub, ?_⟩
      apply Nat.lt_of_not_le
      intro hle
      have htp : tokenPath cfg.mapping t = subPath cfg.mapping t := by unfold tokenPath; rw [if_pos hsub]
      have hlen : p.addr.length ≤ (mainPath cfg.mapping t).length := by rw [g.len, htp]; exact hle
      rw [List.take_of_length_le hlen] at hpre
      have hpos : 0 < (mainPath cfg.mapping t).length := List.length_pos_iff.2 hne
      have hge := hsub.2.2.length_le
      exact fresh (g.subBegins hx hsub (List.length_pos_iff.1 (by omega))) hpre
    · exact absurd hpre (fresh (g.ignoredBegins hx hsub hne))
  · have hpre : p.addr.take (mainPath cfg.mapping t).length <+: q.addr := he ▸ List.take_prefix _ _
    refine ⟨fun hx => fresh (g.begins (.inl hx) hne) hpre, fun hx => fresh (g.begins (.inr hx) hne) hpre, fun hx => ?_⟩
    by_cases hsub : hasSub cfg.mapping t
    · have hpos : 0 < (mainPath cfg.mapping t).length := List.length_pos_iff.2 hne
      have hge := hsub.2.2.length_le
      exact fresh (g.subBegins hx hsub (List.length_pos_iff.1 (by omega))) (he ▸ List.prefix_refl _)
    · exact fresh (g.ignoredBegins hx hsub hne) hpre

/-- The text of the example, and the sub tag which is ignored. -/
example : mainPath exCfg.mapping (exTok c!"b" (some c!"i-title") (some c!"b-elsewhere")) ≠ [] ∧
    ¬ hasSub exCfg.mapping (exTok c!"b" (some c!"i-title") (some c!"b-elsewhere")) := by
  refine ⟨by decide +kernel, fun h => ?_⟩
  exact absurd h (by decide +kernel)

/-! ### C52 -/

/-- **C52**, exactly, for the default pattern `{filename}`: two documents are written to the same file if and only if their file names are the
same, whatever their directories are. -/
theorem C52_default_exact (env : FilesEnv) (docBase targetBase : Option Str) (path : Str) (i j : Nat)
    (own own' doc doc' target target' out out' : Str) (hpath : OutputAbs env path)
    (h : OutputOf env docBase targetBase path [.field .filename] i own doc target out)
    (h' : OutputOf env docBase targetBase path [.field .filename] j own' doc' target' out') :
    out = out' ↔ baseName own = baseName own' := by
  have key : ∀ (k : Nat) (o d t r : Str), OutputOf env docBase targetBase path [.field .filename] k o d t r →
      r = joinPath path (baseName o) := by
    intro k o d t r ⟨name, h1, h2⟩
    have : name = baseName o := by
      simp only [formatParts, formatPart, NameProps.get, namePropsOf, List.append_nil] at h1
      injection h1 with h1
      exact h1.symm
    rw [h2, hpath, this]
  have hs : ∀ o, ¬ ['/'] <+: baseName o := by
    intro o ⟨x, hx⟩
    obtain ⟨_, -, hs, -⟩ := baseName_decompose o
    exact hs (by rw [← hx]; simp)
  rw [key _ _ _ _ _ h, key _ _ _ _ _ h']
  exact ⟨fun hc => joinPath_inj (hs own) (hs own') hc, fun hc => by rw [hc]⟩

/-- Not vacuous: the names of the files of `C52_default_collision`. -/
example : baseName c!"x/1.pdf" = baseName c!"y/1.pdf" ∧ baseName c!"x/1.pdf" ≠ baseName c!"x/2.pdf" := by decide +kernel

/-! ### C110 -/

theorem substituted_shorter {old s t : Str} (ho : old ≠ []) (h : Substituted old [] s t) :
    t.length ≤ s.length ∧ (old <:+: s → t.length < s.length) := by
  have hpos : 0 < old.length := List.length_pos_iff.2 ho
  induction h with
  | nil =>
    refine ⟨Nat.le_refl _, fun ⟨a, b, hab⟩ => ?_⟩
    have := congrArg List.length hab
    simp at this
    exact absurd this.2.1 ho
  | found s t _ ih =>
    rw [List.nil_append, List.length_append]
    have := ih.1
    exact ⟨by omega, fun _ => by omega⟩
  | other c s t hn _ ih =>
    rw [List.length_cons, List.length_cons]
    refine ⟨by have := ih.1; omega, fun hi => ?_⟩
    have : old <:+: s := (List.infix_cons_iff.1 hi).resolve_left hn
    have := ih.2 this
    omega

/-- **C110**, exactly: the copy is the same as the file if and only if the file does not contain the end tag or contains the plain start tag;
otherwise the copy is shorter. -/
theorem C110_exact (data : Str) :
    (fixContentEnd data = data ↔ ¬ c!"</content>" <:+: data ∨ c!"<content>" <:+: data) ∧
    (fixContentEnd data ≠ data → (fixContentEnd data).length < data.length) := by
  have hlt : c!"</content>" <:+: data → ¬ c!"<content>" <:+: data → (fixContentEnd data).length < data.length :=
    fun h1 h2 => (substituted_shorter (by decide) (C110_removed data h2)).2 h1
  have hiff : fixContentEnd data = data ↔ ¬ c!"</content>" <:+: data ∨ c!"<content>" <:+: data := by
    refine ⟨fun h => Classical.byContradiction fun hc => ?_, C110_unchanged data⟩
    rw [not_or] at hc
    have := hlt (Classical.byContradiction hc.1) hc.2
    rw [h] at this
    exact Nat.lt_irrefl _ this
  refine ⟨hiff, fun hne => ?_⟩
  rw [Ne, hiff, not_or] at hne
  exact hlt (Classical.byContradiction hne.1) hne.2

/-- Not vacuous: a stray end tag. -/
example : fixContentEnd c!"<a>x</content></a>" = c!"<a>x</a>" ∧ fixContentEnd c!"<content>x</content>" = c!"<content>x</content>" := by
  decide +kernel

end Verif
