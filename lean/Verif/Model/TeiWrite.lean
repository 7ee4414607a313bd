/-
Model of writing the lines of a document back to XML
(`structured_document/grobid_training_tei.py:249-259, 340-549`).
-/
import Verif.Model.TeiLoad

namespace Verif

/-- The optional `@` of the regular expression `@?([^=]+)="(.+)"\])?$`: given up again if nothing
would remain for the attribute name. -/
def skipAt (r : Str) : Str :=
  if r.head? = some '@' && r.tail.head? != some '=' then r.tail else r

/-- The part of `_parse_tag_expression` after the attribute name: the regular expression
`="(.+)"\])?$`. `$` also matches in front of a final line feed. -/
def parseAttribValue (rest : Str) : Option Str :=
  if startsWith c!"=\"" rest then
    let v := rest.drop 2
    let v := if endsWith c!"\n" v then v.dropLast else v
    let value := v.take (v.length - 2)
    if endsWith c!"\"]" v && !value.isEmpty && value.all (fun c => c ≠ '\n') then some value else none
  else none

/-- The part of `_parse_tag_expression` after the opening bracket: the regular expression
`@?([^=]+)="(.+)"\])?$`. -/
def parseTagAttrib (r : Str) : Option (Str × Str) :=
  let key := (skipAt r).takeWhile (fun c => c ≠ '=')
  if key.isEmpty then none
  else (parseAttribValue ((skipAt r).dropWhile (fun c => c ≠ '='))).map (fun v => (key, v))

/-- `_parse_tag_expression` (structured_document/grobid_training_tei.py:249-259), with the
regular expression `^([^\[]+)(\[@?([^=]+)="(.+)"\])?$` unfolded. -/
def parseTagExpression (s : Str) : Except Err (Str × Dict Str) :=
  let tagName := s.takeWhile (fun c => c ≠ '[')
  let rest := s.dropWhile (fun c => c ≠ '[')
  if tagName.isEmpty then .error .valueError
  else match rest with
    | [] => .ok (tagName, [])
    | _ :: r =>
      match parseTagAttrib r with
      | some kv => .ok (tagName, [kv])
      | none => .error .valueError

/-- An open element of the tree writer: everything of `Elem` but the tail. -/
structure Frame where
  tag : Str
  attrib : Dict Str
  text : Option Str
  children : List Elem

/-- The element of a frame that has no tail yet. -/
def Frame.close (f : Frame) : Elem := .mk f.tag f.attrib f.text f.children none

/-- `_append_text` (structured_document/grobid_training_tei.py:347-358); `_get_last_child_or_none`
is 340-344. -/
def Frame.appendText (f : Frame) (s : Str) : Frame :=
  if s.isEmpty then f
  else match f.children.getLast? with
    | some c =>
      { f with children := f.children.dropLast ++ [c.withTail (some (orEmpty c.tail ++ s))] }
    | none => { f with text := some (orEmpty f.text ++ s) }

/-- `XmlTreeWriter` (structured_document/grobid_training_tei.py:418-440).  In the code
`current_element` points into the tree; here the open elements are a zipper: `cur` is the
current element, `parents` its ancestors (innermost first) up to the container.  An open
element is attached to its parent when it is left, which gives the same tree because only the
current element is ever modified. -/
structure Writer where
  cur : Frame
  parents : List Frame
  path : List Str

/-- `parent.append(child)`. -/
def Frame.append (f : Frame) (e : Elem) : Frame := { f with children := f.children ++ [e] }

namespace Writer

/-- `current_element = current_element.getparent()`. -/
def leave (w : Writer) : Writer :=
  match w.parents with
  | [] => w
  | p :: ps => { w with cur := p.append w.cur.close, parents := ps }

def leaveN : Nat → Writer → Writer
  | 0, w => w
  | n + 1, w => leaveN n w.leave

/-- `XmlTreeWriter.append` (423-424). -/
def append (w : Writer) (e : Elem) : Writer := { w with cur := w.cur.append e }

/-- `XmlTreeWriter.append_text` (426-427). -/
def appendText (w : Writer) (s : Str) : Writer := { w with cur := w.cur.appendText s }

end Writer

/-- The common prefix of two paths: `_get_common_path`
(structured_document/grobid_training_tei.py:361-369); `zip_longest` stops at the first
difference, in particular where one path ends. -/
def commonPath : List Str → List Str → List Str
  | a :: as, b :: bs => if a = b then a :: commonPath as bs else []
  | _, _ => []

/-- `_path_starts_with` (structured_document/grobid_training_tei.py:372-373). -/
def pathStartsWith (p1 p2 : List Str) : Bool := decide (commonPath p1 p2 = p1)

/-- The loop creating the elements of a path (386-396).  `okNode` says which names lxml's
element factory accepts (`TagExpression.create_node`, 209-217, raises `ValueError` otherwise). -/
def enterPath (okNode : Str → Dict Str → Bool) : List Str → Writer → Except Err Writer
  | [], w => .ok w
  | f :: fs, w =>
    match parseTagExpression f with
    | .error e => .error e
    | .ok (tag, attrib) =>
      if okNode tag attrib then
        enterPath okNode fs
          { cur := ⟨tag, attrib, none, []⟩, parents := w.cur :: w.parents, path := w.path ++ [f] }
      else .error .valueError

/-- `require_path` with `_get_element_at_path`
(structured_document/grobid_training_tei.py:376-397, 429-434). -/
def requirePath (okNode : Str → Dict Str → Bool) (req : List Str) (w : Writer) :
    Except Err Writer :=
  if req = w.path then .ok w
  else
    let common := commonPath w.path req
    let w1 := w.leaveN (w.path.length - common.length)
    enterPath okNode (req.drop common.length) { w1 with path := common }

/-- `require_path_or_below` (436-440). -/
def requirePathOrBelow (okNode : Str → Dict Str → Bool) (req : List Str) (w : Writer) :
    Except Err Writer :=
  requirePath okNode (commonPath w.path req) w

/-- Scanner of `_split_path`: `inside` tells whether there is a `{` without `}` before the
current position; `acc` is the current item. -/
def splitPathAux (inside : Bool) (acc : Str) : Str → List Str
  | [] => [acc]
  | c :: s =>
    if c = '/' && !inside then acc :: splitPathAux inside [] s
    else splitPathAux (if c = '{' then true else if c = '}' then false else inside) (acc ++ [c]) s

/-- `_split_path` (structured_document/grobid_training_tei.py:400-401):
`regex.split(r'(?<!\{[^}]*)/', path_str)`. -/
def splitPath (s : Str) : List Str := splitPathAux false [] s

/-- `_get_tag_required_path` (structured_document/grobid_training_tei.py:404-415);
`DEFAULT_TAG_KEY` is `''` (51). -/
def tagRequiredPath (mapping : Dict Str) (tag : Option Str) : List Str :=
  match tag with
  | some (c :: t) => splitPath (mapping.getD (c :: t) (c :: t))
  | _ =>
    match mapping.get? [] with
    | some (d :: ds) => splitPath (d :: ds)
    | _ => []

/-- Configuration of the writer: the mapping from tags to paths, the names lxml accepts and the
character classes. -/
structure WriteCfg where
  cc : CharClass
  mapping : Dict Str
  okNode : Str → Dict Str → Bool

/-- State of `_lines_to_tei`: the writer, the texts of `pending_space_tokens` and
`pending_reset_tag_values`. -/
structure WState where
  w : Writer
  pending : List Str
  resets : List (Option Str)

/-- The tags the writer uses for a token (456-463): the explicit tag, or else the preserved
one. -/
def writerTags (t : Tok) : Option Str × Option Str :=
  (pyOr (t.attrib.get? tagAttribName) (t.attrib.get? preservedTagAttribName),
   pyOr (t.attrib.get? subTagAttribName) (t.attrib.get? preservedSubTagAttribName))

/-- Writing the pending white space (517-521, 526-529). -/
def flushPending (cfg : WriteCfg) (req : List Str) : List Str → Writer → Except Err Writer
  | [], w => .ok w
  | s :: ss, w =>
    match requirePathOrBelow cfg.okNode req w with
    | .error e => .error e
    | .ok w1 => flushPending cfg req ss (w1.appendText s)

/-- The effective sub tag (471-483): ignored if its path does not lie below the main path.
Returns the full sub tag and its required path. -/
def effectiveSub (cfg : WriteCfg) (mainPath : List Str) (subFull : Option Str) :
    Option Str × List Str :=
  let subTag := stripTagPrefix subFull
  let subPath := if truthy subFull then tagRequiredPath cfg.mapping subTag else []
  if truthy subFull && !pathStartsWith mainPath subPath then (none, []) else (subFull, subPath)

/-- One token in `_lines_to_tei` (structured_document/grobid_training_tei.py:455-524). -/
def writeToken (cfg : WriteCfg) (st : WState) (t : Tok) : Except Err WState :=
  let mainFull := (writerTags t).1
  let subFull0 := (writerTags t).2
  let mainPrefix := (splitTagPrefix mainFull).1
  let mainTag := (splitTagPrefix mainFull).2
  let subPrefix := (splitTagPrefix subFull0).1
  if (t.strippedText cfg.cc).isEmpty then
    .ok { st with
      resets := if mainPrefix = some bPrefix then mainTag :: st.resets else st.resets
      pending := st.pending ++ [t.text] }
  else
    let mainPath := tagRequiredPath cfg.mapping mainTag
    let sub := effectiveSub cfg mainPath subFull0
    let w1 :=
      if mainPrefix = some bPrefix then requirePath cfg.okNode mainPath.dropLast st.w
      else if st.resets.contains mainTag then requirePath cfg.okNode [] st.w
      else if subPrefix = some bPrefix then requirePathOrBelow cfg.okNode sub.2.dropLast st.w
      else .ok st.w
    match w1 with
    | .error e => .error e
    | .ok w1 =>
      let req := if truthy sub.1 then sub.2 else mainPath
      match flushPending cfg req st.pending w1 with
      | .error e => .error e
      | .ok w2 =>
        match requirePath cfg.okNode req w2 with
        | .error e => .error e
        | .ok w3 => .ok { w := w3.appendText t.text, pending := [], resets := [] }

def writeTokens (cfg : WriteCfg) : WState → List Tok → Except Err WState
  | st, [] => .ok st
  | st, t :: ts =>
    match writeToken cfg st t with
    | .error e => .error e
    | .ok st1 => writeTokens cfg st1 ts

/-- `E(TeiTagNames.LB)`. -/
def lbElem : Elem := .mk lbTag [] none [] none

/-- The loop over the lines (452-524); `first` is `line_index == 0`. -/
def writeLines (cfg : WriteCfg) (first : Bool) : WState → List (List Tok) → Except Err WState
  | st, [] => .ok st
  | st, l :: ls =>
    let st1 := if first then st else { st with w := st.w.append lbElem }
    match writeTokens cfg st1 l with
    | .error e => .error e
    | .ok st2 => writeLines cfg false st2 ls

/-- The whole element of a writer. -/
def Writer.finish (w : Writer) : Frame := (w.leaveN w.parents.length).cur

/-- `_lines_to_tei` (structured_document/grobid_training_tei.py:443-531) writing into the
(cleared) container element. -/
def linesToTei (cfg : WriteCfg) (container : Frame) (lines : List (List Tok)) :
    Except Err Frame :=
  match writeLines cfg true ⟨⟨container, [], []⟩, [], []⟩ lines with
  | .error e => .error e
  | .ok st =>
    match flushPending cfg [] st.pending st.w with
    | .error e => .error e
    | .ok w => .ok w.finish

/-- `_updated_tei_with_lines` (structured_document/grobid_training_tei.py:534-549) for a
container path of plain tag names.  `container_node.clear()` removes attributes, text,
children and tail, the tag stays. `None` from `find` raises `RuntimeError`. -/
def updatedTei (cfg : WriteCfg) (containerPath : List Str) (root : Elem)
    (lines : List (List Tok)) : Except Err Elem :=
  match findAll containerPath root with
  | [] => .error .runtimeError
  | c :: _ =>
    match linesToTei cfg ⟨c.tag, [], none, []⟩ lines with
    | .error e => .error e
    | .ok f =>
      match replaceFirst (fun _ => f.close) containerPath root with
      | none => .error .runtimeError
      | some r => .ok r

end Verif
