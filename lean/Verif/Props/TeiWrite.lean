/-
C06 (saving keeps the text), C07 (line breaks), C08 (elements of tokens), C09 (begin and inside
prefixes), C56 (tag expressions).
-/
import Verif.Lemmas.TeiPieces
import Verif.Lemmas.Ok

namespace Verif.Props
open Spec

/-! ## C06 Saving an annotated document keeps all text -/

/-- The text of the written element is the text of all tokens (including white space), in
order, whatever their tags. -/
theorem C06_text (cfg : WriteCfg) (tag : Str) (lines : List (List Tok)) (f : Frame)
    (h : linesToTei cfg ⟨tag, [], none, []⟩ lines = .ok f) :
    itertext f.close = lines.flatten.flatMap (·.text) := by
  simpa [Frame.close, itertext, itertextList, orEmpty] using linesToTei_text cfg _ f lines h

/-- Writing succeeds if every component of the path of every text token is an acceptable tag
expression. -/
theorem C06_succeeds (cfg : WriteCfg) (container : Frame) (lines : List (List Tok))
    (h : ∀ l ∈ lines, ∀ t ∈ l, blank cfg.cc t = false →
      ∀ f ∈ tokenPath cfg.mapping t, ∃ tag attrib,
        parseTagExpression f = .ok (tag, attrib) ∧ cfg.okNode tag attrib = true) :
    ∃ f, linesToTei cfg container lines = .ok f :=
  linesToTei_ok cfg container lines h

/-- An example configuration and lines: `title` is written as `head/title`, the other tags as
they are. -/
def exCfg : WriteCfg := ⟨asciiClass, [(c!"title", c!"head/title")], fun _ _ => true⟩

/-- A token with a main tag and a sub tag. -/
def exTok (text : Str) (tag sub : Option Str) : Tok := toTextToken asciiClass text tag sub

def exLines : List (List Tok) :=
  [[exTok c!"A" (some c!"b-title") none, exTok c!" " none none, exTok c!"b" (some c!"i-title") none],
   [exTok c!"c" (some c!"i-title") (some c!"b-head/title/note[@type=\"x\"]"), exTok c!" " none none,
    exTok c!"d" none none, exTok c!"e" (some c!"b-title") none]]

example : ∃ f, linesToTei exCfg ⟨c!"text", [], none, []⟩ exLines = .ok f ∧
    itertext f.close = c!"A bc de" :=
  exists_of_okAnd (by decide +kernel)

/-! ## C07 Saving keeps the line breaks -/

/-- The written element contains the lines: split at the line break elements it has as many
lines as the document and each of them has the text of its line, up to white space (white space
at the end of a line is written behind the line break).
Excluded are tags that ask for a line break element themselves. -/
theorem C07_lines (cfg : WriteCfg) (tag : Str) (lines : List (List Tok)) (f : Frame)
    (hne : lines ≠ [])
    (hlb : ∀ l ∈ lines, ∀ t ∈ l, blank cfg.cc t = false →
      ∀ g ∈ tokenPath cfg.mapping t, ∀ t a, parseTagExpression g = .ok (t, a) → t ≠ c!"lb")
    (h : linesToTei cfg ⟨tag, [], none, []⟩ lines = .ok f) :
    (splitBreaks (flow f.close)).map (fun l => l.filter (fun c => !cfg.cc.isSpace c)) =
      lines.map (fun l => (l.flatMap (·.text)).filter (fun c => !cfg.cc.isSpace c)) := by
  obtain ⟨ps, h1, _, h3, _⟩ := linesToTei_pieces cfg tag [] f lines hlb h
  have hf : flow f.close = (ps.map (·.tok)).flatMap tokFlow := by
    rw [← pieces_flow, ← h1]; exact (itemsElem_flow [] [] f.close).symm
  rw [hf, ← splitBreaks_filter, keep_flow, h3, ← keep_flow, splitBreaks_filter]
  cases lines with
  | nil => exact absurd rfl hne
  | cons l ls =>
    rw [withBreaks_flow, List.map_map]
    rfl

/-- In particular there is one line break element less than there are lines. -/
theorem C07_count (cfg : WriteCfg) (tag : Str) (lines : List (List Tok)) (f : Frame)
    (hne : lines ≠ [])
    (hlb : ∀ l ∈ lines, ∀ t ∈ l, blank cfg.cc t = false →
      ∀ g ∈ tokenPath cfg.mapping t, ∀ t a, parseTagExpression g = .ok (t, a) → t ≠ c!"lb")
    (h : linesToTei cfg ⟨tag, [], none, []⟩ lines = .ok f) :
    (flow f.close).count none + 1 = lines.length := by
  have := congrArg List.length (C07_lines cfg tag lines f hne hlb h)
  rw [List.length_map, List.length_map, splitBreaks_length] at this
  exact this

example : ∃ f, linesToTei exCfg ⟨c!"text", [], none, []⟩ exLines = .ok f ∧
    splitBreaks (flow f.close) = [c!"A b", c!"c de"] :=
  exists_of_okAnd (by decide +kernel)

/-! ## C08 Every annotated token is written inside the element its tag asks for -/

/-- The content of the written element is a sequence of places, one for each token and line
break, such that: the tokens are in the original order; text tokens and line breaks are in the
original order; each text token lies in exactly the chain of elements its tags ask for; and
white space lies in one of the elements containing the following text token, or directly in the
container if no text follows. -/
theorem C08_places (cfg : WriteCfg) (tag : Str) (lines : List (List Tok)) (f : Frame)
    (hlb : ∀ l ∈ lines, ∀ t ∈ l, blank cfg.cc t = false →
      ∀ g ∈ tokenPath cfg.mapping t, ∀ t a, parseTagExpression g = .ok (t, a) → t ≠ c!"lb")
    (h : linesToTei cfg ⟨tag, [], none, []⟩ lines = .ok f) :
    ∃ ps : List Piece,
      Spec.items f.close = ps.flatMap Piece.items ∧
      ps.filterMap (·.tok) = lines.flatten ∧
      (ps.map (·.tok)).filter (fun x => x.all (fun t => !blank cfg.cc t)) =
        (withBreaks lines).filter (fun x => x.all (fun t => !blank cfg.cc t)) ∧
      (∀ pre p post t, ps = pre ++ p :: post → p.tok = some t → blank cfg.cc t = false →
        (tokenPath cfg.mapping t).map parseTagExpression = p.chain.map .ok ∧
        (∀ pre' q mid b, pre = pre' ++ q :: mid → noText cfg.cc mid → q.tok = some b →
          blank cfg.cc b = true → q.addr <+: p.addr)) ∧
      (∀ pre q mid b, ps = pre ++ q :: mid → noText cfg.cc mid → q.tok = some b →
        blank cfg.cc b = true → q.addr = []) := by
  obtain ⟨ps, h1, h2, h3, h4, h5⟩ := linesToTei_pieces cfg tag [] f lines hlb h
  have e : notBlank cfg.cc = fun x => x.all (fun t => !blank cfg.cc t) := by
    funext x; cases x <;> rfl
  rw [e] at h3
  exact ⟨ps, h1, h2, h3, fun pre p post t hs ht hb =>
    ⟨(h4 pre p post t hs ht hb).chain, (h4 pre p post t hs ht hb).space⟩, h5⟩

/-- The elements around the characters of the example. -/
example : ∃ f, linesToTei exCfg ⟨c!"text", [], none, []⟩ exLines = .ok f ∧
    (Spec.items f.close).map (fun i => (i.ch, i.chain.map (·.1))) =
      [(some 'A', [c!"head", c!"title"]), (some ' ', [c!"head", c!"title"]),
       (some 'b', [c!"head", c!"title"]), (none, [c!"head", c!"title"]),
       (some 'c', [c!"head", c!"title", c!"note"]), (some ' ', []),
       (some 'd', []), (some 'e', [c!"head", c!"title"])] :=
  exists_of_okAnd (by decide +kernel)

/-! ## C09 A begin prefix starts a new element and an inside prefix continues it -/

/-- For the same sequence of places:
* a text token whose main tag has the begin prefix (or that follows a white space token
  beginning the same tag) lies in a main element containing nothing written before;
* a text token whose sub tag has the begin prefix lies in a new innermost element;
* otherwise, if the main path is that of the previous text token, it lies in the same main
  element (provided a beginning sub tag is not ignored and lies properly below the main path);
* and if nothing begins and the whole path is that of the previous text token, it lies in the
  same innermost element.
Missing: a begin prefix on a sub tag that is ignored, see `C09_ignored_sub_tag_splits_element`. -/
theorem C09_elements_partial (cfg : WriteCfg) (tag : Str) (lines : List (List Tok)) (f : Frame)
    (hlb : ∀ l ∈ lines, ∀ t ∈ l, blank cfg.cc t = false →
      ∀ g ∈ tokenPath cfg.mapping t, ∀ t a, parseTagExpression g = .ok (t, a) → t ≠ c!"lb")
    (h : linesToTei cfg ⟨tag, [], none, []⟩ lines = .ok f) :
    ∃ ps : List Piece,
      Spec.items f.close = ps.flatMap Piece.items ∧
      ps.filterMap (·.tok) = lines.flatten ∧
      ∀ before p post t, ps = before ++ p :: post → p.tok = some t → blank cfg.cc t = false →
        p.addr.length = (tokenPath cfg.mapping t).length ∧
        (isBegin t ∨ beginOnSpace cfg.cc before t → mainPath cfg.mapping t ≠ [] →
          freshElement before (p.addr.take (mainPath cfg.mapping t).length)) ∧
        (isSubBegin t → hasSub cfg.mapping t → subPath cfg.mapping t ≠ [] →
          freshElement before p.addr) ∧
        (∀ q u mid, follows cfg.cc before q u mid → ¬ isBegin t → ¬ beginOnSpace cfg.cc before t →
          mainPath cfg.mapping t = mainPath cfg.mapping u →
          (isSubBegin t → hasSub cfg.mapping t ∧
            (mainPath cfg.mapping t).length < (subPath cfg.mapping t).length) →
          p.addr.take (mainPath cfg.mapping t).length = q.addr.take (mainPath cfg.mapping t).length) ∧
        (∀ q u mid, follows cfg.cc before q u mid → ¬ isBegin t → ¬ beginOnSpace cfg.cc before t →
          ¬ isSubBegin t → tokenPath cfg.mapping t = tokenPath cfg.mapping u → p.addr = q.addr) := by
  obtain ⟨ps, h1, h2, h3, h4, h5⟩ := linesToTei_pieces cfg tag [] f lines hlb h
  refine ⟨ps, h1, h2, ?_⟩
  intro before p post t hs ht hb
  have g := h4 before p post t hs ht hb
  exact ⟨g.len, g.begins, g.subBegins, g.continues, g.subContinues⟩

/-- The elements directly containing the characters of the example: `e` begins a new title,
the text before is in one title. -/
example : ∃ f, linesToTei exCfg ⟨c!"text", [], none, []⟩ exLines = .ok f ∧
    (Spec.items f.close).map (fun i => (i.ch, i.addr)) =
      [(some 'A', [0, 0]), (some ' ', [0, 0]), (some 'b', [0, 0]), (none, [0, 0]),
       (some 'c', [0, 0, 1]), (some ' ', []), (some 'd', []), (some 'e', [1, 0])] :=
  exists_of_okAnd (by decide +kernel)

/-- The restriction on ignored sub tags is needed: a sub tag that does not belong below the main
path is not written, but its begin prefix still splits the main element. -/
theorem C09_ignored_sub_tag_splits_element :
    ∃ f, linesToTei exCfg ⟨c!"text", [], none, []⟩
      [[exTok c!"A" (some c!"b-title") none,
        exTok c!"b" (some c!"i-title") (some c!"b-elsewhere")]] = .ok f ∧
    (Spec.items f.close).map (fun i => (i.ch, i.addr, i.chain.map (·.1))) =
      [(some 'A', [0, 0], [c!"head", c!"title"]), (some 'b', [1, 0], [c!"head", c!"title"])] :=
  exists_of_okAnd (by decide +kernel)

/-- The tags of the example do not ask for line breaks (the hypothesis of C07, C08 and C09). -/
example : ∀ l ∈ exLines, ∀ t ∈ l, blank exCfg.cc t = false →
    ∀ g ∈ tokenPath exCfg.mapping t, ∀ t a, parseTagExpression g = .ok (t, a) → t ≠ c!"lb" := by
  have h : ∀ l ∈ exLines, ∀ t ∈ l, ∀ g ∈ tokenPath exCfg.mapping t,
      (match parseTagExpression g with | .ok (t, _) => decide (t ≠ c!"lb") | .error _ => true) = true := by
    decide +kernel
  intro l hl t ht _ g hg t' a e
  have := h l hl t ht g hg
  rw [e] at this
  simpa using this

/-! ## C56 Tag expressions -/

theorem C56_aux_takeWhile {p : Char → Bool} (a b : Str) (c : Char) (ha : ∀ x ∈ a, p x = true) (hc : p c = false) :
    (a ++ c :: b).takeWhile p = a ∧ (a ++ c :: b).dropWhile p = c :: b := by
  induction a with
  | nil => simp [hc]
  | cons x a ih =>
    have := ih (fun y hy => ha y (by simp [hy]))
    simp [ha x (by simp), this]

/-- Formatting a name with one attribute and parsing the expression gives back the name and the
attribute, for every name without `[` and every attribute name without `=`, if the attribute
value is not empty and has no line feed.  Missing: empty values (`C56_empty_value`). -/
theorem C56_round_trip_partial (tag k v : Str) (ht : tag ≠ []) (hb : '[' ∉ tag) (hk : k ≠ [])
    (he : '=' ∉ k) (hv : v ≠ []) (hn : '\n' ∉ v) :
    ∃ s, nodeToTagExpression tag [(k, v)] = .ok s ∧ parseTagExpression s = .ok (tag, [(k, v)]) := by
  refine ⟨_, rfl, ?_⟩
  have h1 := C56_aux_takeWhile (p := fun c => decide (c ≠ '[')) tag
    ('@' :: (k ++ '=' :: ('"' :: (v ++ c!"\"]")))) '['
    (by intro x hx; simp; rintro rfl; exact hb hx) (by simp)
  have h2 := C56_aux_takeWhile (p := fun c => decide (c ≠ '=')) k ('"' :: (v ++ c!"\"]")) '='
    (by intro x hx; simp; rintro rfl; exact he hx) (by simp)
  have e : tag ++ c!"[@" ++ k ++ c!"=\"" ++ v ++ c!"\"]" =
      tag ++ '[' :: ('@' :: (k ++ '=' :: ('"' :: (v ++ c!"\"]")))) := by simp
  rw [e]
  have hv' : v.isEmpty = false := by cases v <;> simp_all
  have hk' : k.isEmpty = false := by cases k <;> simp_all
  have ht' : tag.isEmpty = false := by cases tag <;> simp_all
  have hend : endsWith c!"\n" (v ++ c!"\"]") = false := by
    unfold endsWith
    rw [Bool.eq_false_iff]
    intro h
    rw [List.isSuffixOf_iff_suffix] at h
    obtain ⟨x, hx⟩ := h
    have := congrArg List.getLast? hx
    simp at this
  have hend2 : endsWith c!"\"]" (v ++ c!"\"]") = true := by
    unfold endsWith
    rw [List.isSuffixOf_iff_suffix]
    exact List.suffix_append _ _
  have hall : v.all (fun c => decide (c ≠ '\n')) = true := by
    simp only [List.all_eq_true, decide_eq_true_eq]
    rintro x hx rfl; exact hn hx
  unfold parseTagExpression
  simp only [h1.1, h1.2, ht', Bool.false_eq_true, if_false]
  have hp : parseTagAttrib ('@' :: (k ++ '=' :: ('"' :: (v ++ c!"\"]")))) = some (k, v) := by
    obtain ⟨k0, ks, rfl⟩ : ∃ k0 ks, k = k0 :: ks := by
      cases k with
      | nil => exact absurd rfl hk
      | cons a b => exact ⟨a, b, rfl⟩
    have hk0 : k0 ≠ '=' := by rintro rfl; simp at he
    have hm : skipAt ('@' :: (k0 :: ks ++ '=' :: ('"' :: (v ++ c!"\"]")))) =
        k0 :: ks ++ '=' :: ('"' :: (v ++ c!"\"]")) := by
      simp [skipAt, hk0]
    have hd : ('=' :: '"' :: (v ++ c!"\"]")).drop 2 = v ++ c!"\"]" := rfl
    have hval : parseAttribValue ('=' :: '"' :: (v ++ c!"\"]")) = some v := by
      simp only [parseAttribValue, hd, hend]
      simp [hv, hn, startsWith, hend2]
    simp only [parseTagAttrib, hm, h2.1, h2.2, hval]
    simp
  rw [hp]

/-- A name without attributes is its own expression. -/
theorem C56_no_attribute (tag : Str) (ht : tag ≠ []) (hb : '[' ∉ tag) :
    nodeToTagExpression tag [] = .ok tag ∧ parseTagExpression tag = .ok (tag, []) := by
  refine ⟨rfl, ?_⟩
  have h : ∀ x ∈ tag, decide (x ≠ '[') = true := by
    intro x hx; simp; rintro rfl; exact hb hx
  have ht' : tag.isEmpty = false := by cases tag <;> simp_all
  unfold parseTagExpression
  have h1 : tag.takeWhile (fun c => decide (c ≠ '[')) = tag := by
    clear ht hb ht'
    induction tag with
    | nil => rfl
    | cons x s ih =>
      rw [List.takeWhile_cons, if_pos (h x (by simp)), ih (fun y hy => h y (by simp [hy]))]
  have h2 : tag.dropWhile (fun c => decide (c ≠ '[')) = [] := dropWhile_eq_nil_iff.2 h
  simp only [h1, h2]
  simp [ht']

/-- Elements with more than one attribute are rejected. -/
theorem C56_several_attributes (tag : Str) (a b : Str × Str) (rest : Dict Str) :
    nodeToTagExpression tag (a :: b :: rest) = .error .valueError := rfl

/-- Attributes with an empty value are formatted but cannot be parsed again. -/
theorem C56_empty_value (tag k : Str) (hb : '[' ∉ tag) (he : '=' ∉ k) :
    ∃ s, nodeToTagExpression tag [(k, [])] = .ok s ∧ parseTagExpression s = .error .valueError := by
  refine ⟨_, rfl, ?_⟩
  have h1 := C56_aux_takeWhile (p := fun c => decide (c ≠ '[')) tag
    ('@' :: (k ++ '=' :: ('"' :: c!"\"]"))) '['
    (by intro x hx; simp; rintro rfl; exact hb hx) (by simp)
  have e : tag ++ c!"[@" ++ k ++ c!"=\"" ++ [] ++ c!"\"]" =
      tag ++ '[' :: ('@' :: (k ++ '=' :: ('"' :: c!"\"]"))) := by simp
  rw [e]
  unfold parseTagExpression
  simp only [h1.1, h1.2]
  have hp : parseTagAttrib ('@' :: (k ++ '=' :: ('"' :: c!"\"]"))) = none := by
    cases k with
    | nil => decide
    | cons k0 ks =>
      have h2 := C56_aux_takeWhile (p := fun c => decide (c ≠ '=')) (k0 :: ks) ('"' :: c!"\"]") '='
        (by intro x hx; simp; rintro rfl; exact he hx) (by simp)
      have hk0 : k0 ≠ '=' := by rintro rfl; simp at he
      have hm : skipAt ('@' :: (k0 :: ks ++ '=' :: ('"' :: c!"\"]"))) = k0 :: ks ++ '=' :: ('"' :: c!"\"]") := by
        simp [skipAt, hk0]
      have hval : parseAttribValue ('=' :: '"' :: c!"\"]") = none := by decide
      simp only [parseTagAttrib, hm, h2.1, h2.2, hval]
      rfl
  rw [hp]
  split <;> rfl

/-- Whether every `/` of a path component is enclosed in braces and all braces are closed
(`inside`: whether a brace is open). -/
def slashesEnclosed : Bool → Str → Bool
  | inside, [] => !inside
  | inside, c :: s =>
    (c ≠ '/' || inside) && slashesEnclosed (if c = '{' then true else if c = '}' then false else inside) s

theorem C56_aux_split (inside : Bool) (acc s : Str) (rest : Str) (h : slashesEnclosed inside s = true) :
    splitPathAux inside acc (s ++ '/' :: rest) = (acc ++ s) :: splitPathAux false [] rest ∧
    splitPathAux inside acc s = [acc ++ s] := by
  induction s generalizing inside acc with
  | nil =>
    simp only [slashesEnclosed, Bool.not_eq_true'] at h
    subst h
    simp [splitPathAux]
  | cons c s ih =>
    simp only [slashesEnclosed, Bool.and_eq_true] at h
    have hc : (decide (c = '/') && !inside) = false := by
      have := h.1
      cases inside <;> simp_all
    have := ih _ (acc ++ [c]) h.2
    simp only [List.cons_append, splitPathAux, hc, Bool.false_eq_true, if_false]
    simpa using this

/-- Joining path components with `/` and splitting the path gives the components back, if every
`/` in them is enclosed in braces (name spaces).  Missing: other slashes (`C56_slash_in_value`). -/
theorem C56_path_round_trip_partial (fs : List Str) (hne : fs ≠ []) (h : ∀ f ∈ fs, slashesEnclosed false f = true) :
    splitPath (joinWith c!"/" fs) = fs := by
  unfold splitPath
  induction fs with
  | nil => exact absurd rfl hne
  | cons f fs ih =>
    cases fs with
    | nil =>
      have := (C56_aux_split false [] f [] (h f (by simp))).2
      simpa [joinWith] using this
    | cons g gs =>
      have h1 := (C56_aux_split false [] f (joinWith c!"/" (g :: gs)) (h f (by simp))).1
      have h2 := ih (by simp) (fun x hx => h x (by simp [hx]))
      rw [h2] at h1
      simpa [joinWith] using h1

/-- A `/` in an attribute value is not enclosed: the path of such an element is split in the
middle of the attribute, and the document cannot be written. -/
theorem C56_slash_in_value :
    ∃ s, nodeToTagExpression c!"ref" [(c!"target", c!"http://x")] = .ok s ∧
      parseTagExpression s = .ok (c!"ref", [(c!"target", c!"http://x")]) ∧
      splitPath s = [c!"ref[@target=\"http:", [], c!"x\"]"] ∧
      parseTagExpression c!"ref[@target=\"http:" = .error .valueError :=
  ⟨_, rfl, by decide, by decide, by decide⟩

example : ∃ s, nodeToTagExpression c!"note" [(c!"type", c!"a=b")] = .ok s ∧
    s = c!"note[@type=\"a=b\"]" ∧ parseTagExpression s = .ok (c!"note", [(c!"type", c!"a=b")]) :=
  ⟨_, rfl, by decide, by decide⟩

example : splitPath (joinWith c!"/" [c!"{http://x/y}front", c!"title"]) =
    [c!"{http://x/y}front", c!"title"] :=
  C56_path_round_trip_partial _ (by decide) (by decide)

end Verif.Props
