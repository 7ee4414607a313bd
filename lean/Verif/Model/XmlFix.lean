/-
Model of utils/xml.py (repair of malformed XML): `FixingHtmlParser`, `get_fixed_xml_str`.
-/
import Verif.Model.Basic

namespace Verif

/-- What `html.parser.HTMLParser` (external) reports while reading a text.  Comments,
declarations and processing instructions are not handled by `FixingHtmlParser` and therefore not
represented.  An attribute without value is reported with the value `None`. -/
inductive HtmlEvent
  /-- `handle_starttag(tag, attrs)` -/
  | start (tag : Str) (attrs : List (Str × Option Str))
  /-- `handle_startendtag(tag, attrs)`, for `<tag/>` -/
  | startEnd (tag : Str) (attrs : List (Str × Option Str))
  /-- `handle_endtag(tag)` -/
  | stop (tag : Str)
  /-- `handle_data(data)` -/
  | data (s : Str)

/-- State of `FixingHtmlParser` (utils/xml.py:163-167): what was written to the buffer and the
stack of open tags, innermost first (the code appends at the end). -/
structure FixState where
  buffer : Str
  stack : List Str

/-- Python `s.replace(c, new)` for a string `c` of one character. -/
def replaceChar (c : Char) (new : Str) (s : Str) : Str :=
  s.flatMap (fun x => if x = c then new else [x])

/-- `xml.sax.saxutils.escape(data)` (standard library). -/
def saxEscape (s : Str) : Str :=
  replaceChar '<' c!"&lt;" (replaceChar '>' c!"&gt;" (replaceChar '&' c!"&amp;" s))

/-- `xml.sax.saxutils.quoteattr(data)` (standard library). -/
def saxQuoteattr (s : Str) : Str :=
  let d := replaceChar '\t' c!"&#9;" (replaceChar '\r' c!"&#13;" (replaceChar '\n' c!"&#10;" (saxEscape s)))
  if '"' ∈ d then
    if '\'' ∈ d then '"' :: replaceChar '"' c!"&quot;" d ++ ['"'] else '\'' :: d ++ ['\'']
  else '"' :: d ++ ['"']

/-- The loop over the attributes in `handle_starttag` (utils/xml.py:175-177).  `quoteattr(None)`
fails with an `AttributeError`. -/
def fixAttrs : List (Str × Option Str) → Except Err Str
  | [] => .ok []
  | (k, v) :: as =>
    match v with
    | none => .error .attributeError
    | some v =>
      match fixAttrs as with
      | .error e => .error e
      | .ok r => .ok (' ' :: k ++ '=' :: saxQuoteattr v ++ r)

/-- `FixingHtmlParser.handle_starttag` (utils/xml.py:172-179). -/
def fixStart (st : FixState) (tag : Str) (attrs : List (Str × Option Str)) : Except Err FixState :=
  match fixAttrs attrs with
  | .error e => .error e
  | .ok r => .ok { buffer := st.buffer ++ ('<' :: tag ++ r ++ ['>']), stack := tag :: st.stack }

/-- `FixingHtmlParser._close_current_element` (utils/xml.py:181-184). -/
def fixCloseCurrent (st : FixState) : FixState :=
  match st.stack with
  | [] => st
  | t :: ts => { buffer := st.buffer ++ ('<' :: '/' :: t ++ ['>']), stack := ts }

/-- The loop `while tag != self._current_tag` (utils/xml.py:204-209), over the open tags. -/
def fixCloseUntil (tag : Str) : List Str → FixState → FixState
  | [], st => st
  | t :: ts, st => if tag ≠ t then fixCloseUntil tag ts (fixCloseCurrent st) else st

/-- `FixingHtmlParser.handle_endtag` (utils/xml.py:190-209). -/
def fixEnd (st : FixState) (tag : Str) : FixState :=
  match st.stack with
  | [] => st
  | t :: _ =>
    if tag = t then fixCloseCurrent st
    else if tag ∉ st.stack then fixCloseCurrent st
    else fixCloseUntil tag st.stack st

/-- `FixingHtmlParser.handle_data` (utils/xml.py:211-213). -/
def fixData (st : FixState) (s : Str) : FixState := { st with buffer := st.buffer ++ saxEscape s }

/-- One event; `HTMLParser.handle_startendtag` (standard library) calls `handle_starttag` and
`handle_endtag`. -/
def fixEvent (st : FixState) : HtmlEvent → Except Err FixState
  | .start t as => fixStart st t as
  | .startEnd t as =>
    match fixStart st t as with
    | .error e => .error e
    | .ok st' => .ok (fixEnd st' t)
  | .stop t => .ok (fixEnd st t)
  | .data s => .ok (fixData st s)

/-- `FixingHtmlParser.feed`: all events. -/
def fixFeed (st : FixState) : List HtmlEvent → Except Err FixState
  | [] => .ok st
  | e :: es =>
    match fixEvent st e with
    | .error x => .error x
    | .ok st' => fixFeed st' es

/-- The loop `while self.tag_stack` of `FixingHtmlParser.close` (utils/xml.py:215-218). -/
def fixClose : List Str → FixState → FixState
  | [], st => st
  | _ :: ts, st => fixClose ts (fixCloseCurrent st)

/-- The output for a sequence of events: feeding and closing (utils/xml.py:229-232). -/
def fixEvents (es : List HtmlEvent) : Except Err Str :=
  match fixFeed { buffer := [], stack := [] } es with
  | .error x => .error x
  | .ok st => .ok (fixClose st.stack st).buffer

/-- `get_fixed_xml_str` (utils/xml.py:221-234).  `valid` is whether `etree.fromstring` succeeds,
`tokenise` the HTML parser of the standard library (both external). -/
def getFixedXmlStr (valid : Str → Bool) (tokenise : Str → List HtmlEvent) (s : Str) : Except Err Str :=
  if valid s then .ok s else fixEvents (tokenise s)

end Verif
