/-
Model of `GrobidTrainingTeiStructuredDocument`
(`structured_document/grobid_training_tei.py:552-726`).

Tokens are mutable objects shared by the document, its lines and the `token.line` references;
they are modelled by identities (natural numbers) in a store.
-/
import Verif.Model.TeiWrite

namespace Verif

/-- `TeiLine` (structured_document/grobid_training_tei.py:120-128): `non_space_tokens` is
computed once, on construction. -/
structure Line where
  tokens : List Nat
  nonSpace : List Nat
  deriving DecidableEq

/-- A document: the token store, the `line` reference of each token (as the tokens of that
line) and the lines. -/
structure Doc where
  tok : Nat → Tok
  lineOf : Nat → List Nat
  lines : List Line

namespace Doc

/-- All token objects, in document order, including white space. -/
def allTokens (d : Doc) : List Nat := d.lines.flatMap (·.tokens)

/-- The tokens in document order without white space (`iter_all_tokens`,
core/structured_document/__init__.py:70-74, with `get_tokens_of_line`,
structured_document/grobid_training_tei.py:618-619). -/
def nonSpaceTokens (d : Doc) : List Nat := d.lines.flatMap (·.nonSpace)

/-- Changes the attributes of one token object. -/
def modAttrib (d : Doc) (i : Nat) (f : Dict Str → Dict Str) : Doc :=
  { d with tok := fun j => if j = i then { d.tok j with attrib := f (d.tok j).attrib } else d.tok j }

def setAttr (d : Doc) (i : Nat) (name : Str) (v : Option Str) : Doc :=
  d.modAttrib i (fun a => a.setOrRemove name v)

def getAttr (d : Doc) (i : Nat) (name : Str) : Option Str := (d.tok i).attrib.get? name

/-- `get_tag` (633-634). -/
def getTag (d : Doc) (i : Nat) (level : Option Nat := none) (scope : Option Str := none) :
    Option Str :=
  d.getAttr i (scopedAttribName tagAttribName scope level)

/-- `get_sub_tag` (core/structured_document/__init__.py:114-115). -/
def getSubTag (d : Doc) (i : Nat) : Option Str := d.getTag i (some subLevel)

/-- `get_preserved_tag` (636-637). -/
def getPreservedTag (d : Doc) (i : Nat) (level : Option Nat := none) : Option Str :=
  d.getAttr i (scopedAttribName preservedTagAttribName none level)

/-- `get_tag_or_preserved_tag` (639-640): Python `or`. -/
def getTagOrPreserved (d : Doc) (i : Nat) (level : Option Nat := none) : Option Str :=
  pyOr (d.getTag i level) (d.getPreservedTag i level)

/-- `get_tag_or_preserved_tag_value` (642-643). -/
def getTagOrPreservedValue (d : Doc) (i : Nat) (level : Option Nat := none) : Option Str :=
  stripTagPrefix (d.getTagOrPreserved i level)

/-- `get_tag_value` (core/structured_document/__init__.py:102-103). -/
def getTagValue (d : Doc) (i : Nat) : Option Str := stripTagPrefix (d.getTag i)

/-- `get_text` (627-628). -/
def getText (cc : CharClass) (d : Doc) (i : Nat) : Str := (d.tok i).strippedText cc

/-- `get_whitespace` (630-631). -/
def getWhitespace (d : Doc) (i : Nat) : Option Str := (d.tok i).whitespace

/-- `set_tag_only` (645-649). -/
def setTagOnly (d : Doc) (i : Nat) (tag : Option Str) (level : Option Nat := none)
    (scope : Option Str := none) : Doc :=
  d.setAttr i (scopedAttribName tagAttribName scope level) tag

/-- `set_sub_tag_only` (651-653). -/
def setSubTagOnly (d : Doc) (i : Nat) (tag : Option Str) : Doc :=
  d.setAttr i subTagAttribName tag

/-- `clear_preserved_sub_tag` (655-657). -/
def clearPreservedSubTag (d : Doc) (i : Nat) : Doc :=
  d.setAttr i preservedSubTagAttribName none

/-- `clear_preserved_tag_only` (659-665). -/
def clearPreservedTagOnly (d : Doc) (i : Nat) (level : Option Nat := none) : Doc :=
  d.setAttr i (scopedAttribName preservedTagAttribName none level) none

/-- `_set_preserved_tag` (691-696). -/
def setPreservedTag (d : Doc) (i : Nat) (tag : Option Str) (level : Option Nat := none) : Doc :=
  d.setAttr i (scopedAttribName preservedTagAttribName none level) tag

/-- `_clear_same_preserved_tag_on_same_line` (680-689). -/
def clearSamePreserved (d : Doc) (i : Nat) (level : Option Nat) : Doc :=
  let preserved := stripTagPrefix (d.getPreservedTag i level)
  if truthy preserved then
    (d.lineOf i).foldl (fun d j =>
      if stripTagPrefix (d.getPreservedTag j level) = preserved then
        d.setPreservedTag j none level
      else d) d
  else d

/-- `set_tag` (667-678). -/
def setTag (d : Doc) (i : Nat) (tag : Option Str) (level : Option Nat := none)
    (scope : Option Str := none) : Doc :=
  let previous := d.getTagOrPreserved i level
  let d1 := d.setTagOnly i tag level scope
  if (d.tok i).isSpace then d1
  else if stripTagPrefix tag ≠ stripTagPrefix previous then
    let d2 := d1.clearSamePreserved i level
    if level = none then d2.clearSamePreserved i (some subLevel) else d2
  else d1

/-- `set_sub_tag` (core/structured_document/__init__.py:117-118). -/
def setSubTag (d : Doc) (i : Nat) (tag : Option Str) : Doc := d.setTag i tag (some subLevel)

/-- `_preserve_current_tags` (577-592) for one token and level; `rev` is
`rev_tag_to_tei_path_mapping`. `rev.get(None, None)` is `None`. -/
def preserveToken (rev : Dict Str) (d : Doc) (i : Nat) (level : Option Nat) : Doc :=
  let full := d.getTag i level
  let (pre, existing) := splitTagPrefix full
  let mapped := addTagPrefix (existing.map (fun t => rev.getD t t)) pre
  d.setPreservedTag i mapped level

/-- `_preserve_current_tags` (577-592). -/
def preserveCurrentTags (rev : Dict Str) (d : Doc) : Doc :=
  d.allTokens.foldl (fun d i => preserveToken rev (preserveToken rev d i none) i (some subLevel)) d

/-- `_reset_current_tags` (594-598). -/
def resetCurrentTags (d : Doc) : Doc :=
  d.allTokens.foldl (fun d i => (d.setTagOnly i none).setSubTagOnly i none) d

/-- `{v: k for k, v in mapping.items()}` (578). -/
def revMapping (mapping : Dict Str) : Dict Str := Dict.ofPairs (mapping.map (fun p => (p.2, p.1)))

/-- Numbers the tokens of the lines consecutively, starting with `n`. -/
def number : Nat → List (List Tok) → List (List Nat)
  | _, [] => []
  | n, l :: ls => List.range' n l.length :: number (n + l.length) ls

/-- The document made of freshly created lines: the `i`-th token has identity `i`
(`TeiLine.__init__`, 121-125, sets `token.line` and `non_space_tokens`). -/
def ofLines (lines : List (List Tok)) : Doc :=
  let toks := lines.flatten
  let ids := number 0 lines
  let tok := fun i => toks.getD i ⟨[], false, [], none⟩
  { tok := tok
    lineOf := fun i => (ids.find? (fun l => l.contains i)).getD []
    lines := ids.map (fun l => ⟨l, l.filter (fun i => !(tok i).isSpace)⟩) }

/-- The lines of a document as token values (what the writer sees). -/
def lineToks (d : Doc) : List (List Tok) := d.lines.map (fun l => l.tokens.map d.tok)

/-- State of the loop of `remove_all_untagged`. -/
structure RmState where
  /-- `current_result_line_tokens`, never reset -/
  current : List Nat
  outputEnabled : Bool
  /-- `non_space_tokens` of the lines created so far; their `tokens` all are the one list
  `current_result_line_tokens` -/
  lines : List (List Nat)

/-- The loop over the tokens of a line (712-720). -/
def rmToken (d : Doc) (st : RmState) (i : Nat) : RmState :=
  if (d.tok i).isSpace then
    if st.outputEnabled then { st with current := st.current ++ [i] } else st
  else
    let enabled := truthy (d.getAttr i tagAttribName)
    if enabled then { st with current := st.current ++ [i], outputEnabled := true }
    else { st with outputEnabled := false }

/-- One line (711-722): `TeiLine(current_result_line_tokens)` keeps a reference to the shared
list but takes a snapshot of the non space tokens. -/
def rmLine (d : Doc) (st : RmState) (l : Line) : RmState :=
  let st1 := l.tokens.foldl (rmToken d) st
  if st1.current.isEmpty then st1
  else { st1 with lines := st1.lines ++ [st1.current.filter (fun i => !(d.tok i).isSpace)] }

/-- `remove_all_untagged` (707-723). Every created line shares the final token list; each token
in it refers to the last line created. -/
def removeAllUntagged (d : Doc) : Doc :=
  let st := d.lines.foldl (rmLine d) ⟨[], true, []⟩
  { d with
    lines := st.lines.map (fun ns => ⟨st.current, ns⟩)
    lineOf := fun i => if st.current.contains i then st.current else d.lineOf i }

end Doc

/-- Options of `GrobidTrainingTeiStructuredDocument.__init__` (553-566). -/
structure DocCfg where
  cc : CharClass
  mapping : Dict Str
  okNode : Str → Dict Str → Bool
  containerPath : List Str
  preserveTags : Bool

/-- `GrobidTrainingTeiStructuredDocument.__init__` (structured_document/grobid_training_tei.py:
553-575). -/
def loadDoc (cfg : DocCfg) (root : Elem) : Except Err Doc :=
  match extractContainers cfg.cc (cfg.mapping.map (·.2)) (findAll cfg.containerPath root) with
  | .error e => .error e
  | .ok lines =>
    let d := Doc.ofLines lines
    let d1 := if cfg.preserveTags then d.preserveCurrentTags (Doc.revMapping cfg.mapping) else d
    .ok d1.resetCurrentTags

/-- The `root` property (structured_document/grobid_training_tei.py:600-608). -/
def docRoot (cfg : DocCfg) (root : Elem) (d : Doc) : Except Err Elem :=
  updatedTei ⟨cfg.cc, cfg.mapping, cfg.okNode⟩ cfg.containerPath root d.lineToks

end Verif
