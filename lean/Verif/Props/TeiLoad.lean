/-
C04 (tokenising), C05 (loading keeps text and lines), C58 (main tags on load), C59 (sub tags
across line breaks).
-/
import Verif.Lemmas.LoadSubTags
import Verif.Lemmas.ExtendLine

namespace Verif.Props

/-! ## C04 Tokenising text loses nothing -/

/-- The tokens of a text, concatenated, are the text, and no token is empty. -/
theorem C04_lossless (cc : CharClass) (s : Str) :
    (tokenizeText cc s).flatten = s ∧ ∀ t ∈ tokenizeText cc s, t ≠ [] :=
  ⟨tokenizeText_flatten cc s, tokenizeText_ne_nil cc s⟩

/-- The text is cut exactly next to every character that is not a word character and between a
lower case and an upper case letter. -/
theorem C04_boundaries (cc : CharClass) (s : Str) :
    tokenizeText cc s = Spec.cutAt (Spec.tokenBoundary cc) s :=
  tokenizeText_eq_cutAt cc s

example : tokenizeText asciiClass c!"Abc, deFgh 1" =
    [c!"Abc", c!",", c!" ", c!"de", c!"Fgh", c!" ", c!"1"] := by decide

/-- In every line of a loaded document, each token records the white space following it: the
text of the next token if that is white space, nothing otherwise; the last token of a line
records none. -/
theorem C04_whitespace (cc : CharClass) (rootPaths : List Str) (containers : List Elem)
    (lines : List (List Tok)) (h : extractContainers cc rootPaths containers = .ok lines)
    (l : List Tok) (hl : l ∈ lines) :
    (∀ (pre post : List Tok) (t u : Tok), l = pre ++ t :: u :: post →
      t.whitespace = some (if u.text.all cc.isSpace then u.text else [])) ∧
    (∀ (pre : List Tok) (t : Tok), l = pre ++ [t] → t.whitespace = none) := by
  have := wsRev_reverse cc l (extractContainersFrom_inv (wsInv cc) rootPaths containers _ lines h trivial l hl)
  refine ⟨?_, ?_⟩
  · intro pre post t u hl
    rw [this.1 pre post t u hl]
    congr 1
    have e : (strip cc u.text).isEmpty = u.text.all cc.isSpace := by
      rw [Bool.eq_iff_iff, List.isEmpty_iff, strip_eq_nil_iff, List.all_eq_true]
    rw [e]
  · intro pre t hl
    exact this.2 t (by rw [hl]; simp)

/-- The example document `<text>A b<lb/>c <n k="v">d</n></text>`. -/
def exampleText : Elem :=
  .mk c!"text" [] (some c!"A b")
    [.mk c!"lb" [] none [] (some c!"c "), .mk c!"n" [(c!"k", c!"v")] (some c!"d") [] none] none

example : ∃ lines, extractContainers asciiClass [] [exampleText] = .ok lines ∧
    lines.map (·.map (fun t => (t.text, t.whitespace))) =
      [[(c!"A", some c!" "), (c!" ", some []), (c!"b", none)],
       [(c!"c", some c!" "), (c!" ", some []), (c!"d", none)]] := ⟨_, rfl, by decide⟩

/-! ## C05 Loading keeps all text and the line structure -/

/-- Loading succeeds exactly when no element below a container has more than one attribute; the
error otherwise is a `ValueError`. -/
theorem C05_loads_iff (cc : CharClass) (rootPaths : List Str) (containers : List Elem) :
    ((∃ lines, extractContainers cc rootPaths containers = .ok lines) ↔
      ∀ e ∈ containers, Spec.allBelow (fun _ a => a.length ≤ 1) e) ∧
    (∀ err, extractContainers cc rootPaths containers = .error err → err = .valueError) :=
  ⟨extractContainersFrom_ok_iff cc rootPaths containers _,
   fun err h => extractContainersFrom_error cc rootPaths containers _ err h⟩

/-- The text of the lines is the text of the containers in document order, split at the `lb`
elements; only an empty rest after the last line break is left out. -/
theorem C05_lines (cc : CharClass) (rootPaths : List Str) (containers : List Elem)
    (lines : List (List Tok)) (h : extractContainers cc rootPaths containers = .ok lines) :
    lines.map (fun l => l.flatMap (·.text)) =
      containers.flatMap (fun e =>
        Spec.dropFinalEmpty (Spec.splitBreaks (Spec.flow e ++ Spec.chars e.tail))) :=
  extractContainersFrom_lines cc rootPaths containers _ lines h rfl

/-- The streams used above are what they should be: without the breaks the stream of an element
is its text, splitting at the breaks loses nothing and gives one line more than there are
breaks. -/
theorem C05_flow_spec (e : Elem) (r : List (Option Char)) :
    (Spec.flow e).filterMap id = itertext e ∧
    (Spec.splitBreaks r).flatten = r.filterMap id ∧
    (Spec.splitBreaks r).length = r.count none + 1 :=
  ⟨flow_text e, splitBreaks_flatten r, splitBreaks_length r⟩

/-- All lines together contain exactly the text of the containers in document order, each
followed by the text after it. -/
theorem C05_all_text (cc : CharClass) (rootPaths : List Str) (containers : List Elem)
    (lines : List (List Tok)) (h : extractContainers cc rootPaths containers = .ok lines) :
    lines.flatten.flatMap (·.text) = containers.flatMap (fun e => itertext e ++ orEmpty e.tail) := by
  have h1 := congrArg List.flatten (C05_lines cc rootPaths containers lines h)
  have e1 : (lines.map (fun l => l.flatMap (·.text))).flatten = lines.flatten.flatMap (·.text) := by
    clear h h1
    induction lines with
    | nil => rfl
    | cons l ls ih => simp [ih]
  rw [← e1, h1]
  generalize containers = es
  induction es with
  | nil => rfl
  | cons e es ih =>
    simp only [List.flatMap_cons, List.flatten_append, ih, dropFinalEmpty_flatten,
      splitBreaks_flatten, List.filterMap_append, filterMap_chars, flow_text]

example : ∃ lines, extractContainers asciiClass [] [exampleText] = .ok lines ∧
    lines.map (fun l => l.flatMap (·.text)) = [c!"A b", c!"c d"] := ⟨_, rfl, by decide⟩

/-- An element with two attributes inside the container makes loading fail. -/
example : extractContainers asciiClass []
    [.mk c!"text" [] none [.mk c!"x" [(c!"a", c!"1"), (c!"b", c!"2")] none [] none] none]
    = .error .valueError := rfl

/-! ## C58 Main tags on load -/

/-- Loading tags the text as follows: every outermost tagged element (one that directly contains
text, or whose path is configured) is one entity tagged with its path, all other text has no
tag.  `Spec.segments` lists these stretches of text. -/
theorem C58_main_tags (cc : CharClass) (rootPaths : List Str) (containers : List Elem)
    (hnames : ∀ e ∈ containers, Spec.allBelow (fun tag _ => tag ≠ []) e)
    (lines : List (List Tok)) (h : extractContainers cc rootPaths containers = .ok lines) :
    lines.flatten.map (fun t => (t.text, t.attrib.get? c!"tag")) =
      containers.flatMap (fun e =>
        (Spec.segments cc rootPaths [] e ++ [(none, [orEmpty e.tail])]).flatMap
          (Spec.segmentTokens cc)) :=
  extractContainersFrom_tags cc rootPaths containers _ lines h rfl rfl hnames

/-- `<text><h>T <i>x</i></h> <p>y</p></text>` -/
example : ∃ lines, extractContainers asciiClass []
    [.mk c!"text" [] none
      [.mk c!"h" [] (some c!"T ") [.mk c!"i" [] (some c!"x") [] none] none,
       .mk c!"p" [] (some c!"y") [] none] none] = .ok lines ∧
    lines.flatten.map (fun t => (t.text, t.attrib.get? c!"tag")) =
      [(c!"T", some c!"b-h"), (c!" ", some c!"i-h"), (c!"x", some c!"i-h"), (c!"y", some c!"b-p")] :=
  ⟨_, rfl, by decide⟩

/-! ## C59 Sub tags on load -/

/-- The property fails: text of a sub element after a line break inside it has lost its sub tag.
`<text><h>T <s>a<lb/>b</s></h></text>`: `b` lies inside `s`. -/
theorem C59_sub_tag_lost_after_line_break :
    ∃ lines, extractContainers asciiClass []
      [.mk c!"text" [] none
        [.mk c!"h" [] (some c!"T ")
          [.mk c!"s" [] (some c!"a") [.mk c!"lb" [] none [] (some c!"b")] none] none] none] = .ok lines ∧
      lines.flatten.map (fun t => (t.text, t.attrib.get? c!"level2_tag")) =
        [(c!"T", none), (c!" ", none), (c!"a", some c!"b-h/s"), (c!"b", none)] :=
  ⟨_, rfl, by decide⟩

/-- Exactly these sub tags are set on loading: a tagged element inside of an outermost tagged
element starts a new sub entity with its path, and the end of any element inside of an outermost
tagged element ends it; the text after that has no sub tag, also if it still lies inside of a
tagged element.  `Spec.subGroups` lists these stretches of text. -/
theorem C59_sub_tags (cc : CharClass) (rootPaths : List Str) (containers : List Elem)
    (hnames : ∀ e ∈ containers, Spec.allBelow (fun tag _ => tag ≠ []) e)
    (lines : List (List Tok)) (h : extractContainers cc rootPaths containers = .ok lines) :
    lines.flatten.map (fun t => (t.text, t.attrib.get? c!"level2_tag")) =
      (Spec.subGroups none [] (containers.flatMap (fun e =>
        Spec.docEvents cc rootPaths [] e ++ [.text (orEmpty e.tail)]))).flatMap (Spec.segmentTokens cc) := by
  rw [subGroups_tokens cc _ (by
    intro p hp
    obtain ⟨e, he, hp⟩ := List.mem_flatMap.1 hp
    rcases List.mem_append.1 hp with hp | hp
    · exact docEvents_named cc rootPaths [] e (by simp) (hnames e he) p hp
    · rw [List.mem_singleton] at hp
      cases hp) none (by simp) []]
  exact extractContainersFrom_events cc rootPaths containers _ lines h rfl rfl rfl hnames

/-- `<text><h>T <s>a<i> </i>b</s>c<r>d e</r></h></text>`: after the element `i` the sub tag of `s` is
lost, `r` has the sub tag `h/r`. -/
example : ∃ lines, extractContainers asciiClass []
    [.mk c!"text" [] none
      [.mk c!"h" [] (some c!"T ")
        [.mk c!"s" [] (some c!"a") [.mk c!"i" [] (some c!" ") [] (some c!"b")] (some c!"c"),
         .mk c!"r" [] (some c!"d e") [] none] none] none] = .ok lines ∧
    lines.flatten.map (fun t => (t.text, t.attrib.get? c!"level2_tag")) =
      [(c!"T", none), (c!" ", none), (c!"a", some c!"b-h/s"), (c!" ", some c!"i-h/s"), (c!"b", none), (c!"c", none),
       (c!"d", some c!"b-h/r"), (c!" ", some c!"i-h/r"), (c!"e", some c!"i-h/r")] :=
  ⟨_, rfl, by decide⟩

/-- The property holds where no tagged element inside of a tagged element has elements (such as line
breaks) in it: all text has the path of the tagged element it lies in as its sub tag. -/
theorem C59_own_sub_tag_partial (cc : CharClass) (rootPaths : List Str) (containers : List Elem)
    (hnames : ∀ e ∈ containers, Spec.allBelow (fun tag _ => tag ≠ []) e)
    (hplain : ∀ e ∈ containers, Spec.docPlain cc rootPaths [] e)
    (lines : List (List Tok)) (h : extractContainers cc rootPaths containers = .ok lines) :
    lines.flatten.map (fun t => (t.text, Spec.tagValue (t.attrib.get? c!"level2_tag"))) =
      (containers.flatMap (fun e => Spec.docSubs cc rootPaths [] e ++ [(none, orEmpty e.tail)])).flatMap
        (fun node => (Spec.cutAt (Spec.tokenBoundary cc) node.2).map (fun t => (t, node.1))) := by
  have h1 := congrArg (List.map subVal) (extractContainersFrom_events cc rootPaths containers _ lines h rfl rfl rfl hnames)
  rw [List.map_map] at h1
  have h2 : lines.flatten.map (fun t => (t.text, Spec.tagValue (t.attrib.get? c!"level2_tag"))) =
      lines.flatten.map (subVal ∘ subView) := by
    apply List.map_congr_left
    intro t _
    rw [← stripTagPrefix_eq_tagValue]
    rfl
  rw [h2, h1]
  clear h h1 h2
  have hmain : ∀ es : List Elem, (∀ e ∈ es, Spec.allBelow namedTag e) → (∀ e ∈ es, Spec.docPlain cc rootPaths [] e) →
      (evMark cc none (es.flatMap (fun e => Spec.docEvents cc rootPaths [] e ++ [.text (orEmpty e.tail)]))).map subVal =
        nodeSubs cc (es.flatMap (fun e => Spec.docSubs cc rootPaths [] e ++ [(none, orEmpty e.tail)])) := by
    intro es hn hp
    induction es with
    | nil => rfl
    | cons e es ih =>
      have ih := ih (fun e he => hn e (List.mem_cons_of_mem _ he)) (fun e he => hp e (List.mem_cons_of_mem _ he))
      rw [List.flatMap_cons, List.flatMap_cons, List.append_assoc, List.append_assoc, List.singleton_append, List.singleton_append,
        evMark_append, evAfter_docEvents, List.map_append, nodeSubs_append, evMark_text_none, nodeSubs_cons, ih,
        docSubs_events cc rootPaths [] e (by simp) (hn e (by simp)) (hp e (by simp))]
  exact hmain containers hnames hplain

/-- `<text><h>T <s>a b</s>c</h></text>` -/
example :
    let e : Elem := .mk c!"text" [] none
      [.mk c!"h" [] (some c!"T ") [.mk c!"s" [] (some c!"a b") [] (some c!"c")] none] none
    Spec.docPlain asciiClass [] [] e ∧
    ∃ lines, extractContainers asciiClass [] [e] = .ok lines ∧
      lines.flatten.map (fun t => (t.text, Spec.tagValue (t.attrib.get? c!"level2_tag"))) =
        [(c!"T", none), (c!" ", none), (c!"a", some c!"h/s"), (c!" ", some c!"h/s"), (c!"b", some c!"h/s"), (c!"c", none)] :=
  ⟨by simp [Spec.docPlain, Spec.docPlainList, Spec.plainSubs, Spec.plainSubsList], _, rfl, by decide⟩

end Verif.Props
