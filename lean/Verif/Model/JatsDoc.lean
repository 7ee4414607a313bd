/-
Model of the repair of a JATS file: parsing with and without repair of the XML (utils/xml.py:47-119), all
references, and the meta data added (fix_jats_xml.py:755-846).
-/
import Verif.Model.JatsFix
import Verif.Model.MatchingUtils
import Verif.Model.PyStr

namespace Verif

/-! ### Parsing (utils/xml.py) -/

/-- White space removed by `bytes.lstrip()`. -/
def isAsciiSpace (c : Char) : Bool := c.toNat ∈ [0x20, 0x09, 0x0a, 0x0b, 0x0c, 0x0d]

/-- The repair of the bytes of an XML file (`auto_download_and_fix_input_file`, utils/xml.py:66-68). -/
def repairedXml (data : Str) : Str := replaceAll c!"&dagger;" c!"&#x2020;" (data.dropWhile isAsciiSpace)

/-- `skip_spaces` (utils/xml.py:73-79). -/
def skipSpaces (data : Str) : Str := data.dropWhile (fun c => c = ' ')

/-- The lines of a file opened as binary, without the line feeds. -/
def fileLines (data : Str) : List Str :=
  let ls := splitOn '\n' data
  if ls.getLast? = some [] then ls.dropLast else ls

/-- `parse_xml_or_get_error_line` (utils/xml.py:82-112), `parse_xml` (utils/xml.py:115-119). `parse` is
`etree.parse`, whose errors have the number of a line. `XMLSyntaxErrorWithErrorLine`, which is a
`ValueError`, is raised if there is such a line; otherwise the exception of the parser is raised again, which is not. -/
def parseXml (parse : Str → Except Nat JNode) (fix : Bool) (data : Str) : Except (Err × Str) JNode :=
  let data := if fix then repairedXml data else data
  match parse (skipSpaces data) with
  | .ok root => .ok root
  | .error lineno =>
    if lineno = 0 then .error (.exception, [])
    else match (fileLines data)[lineno - 1]? with
      | some line => .error (.valueError, line)
      | none => .error (.exception, [])

/-! ### References (fix_jats_xml.py:51, 755-770) -/

/-- Whether an element with these tags of its ancestors, nearest first, is selected by `.//back/ref-list/ref`
(fix_jats_xml.py:51) from the root: `back` is not the root itself. -/
def isRefAt (ancestors : List Str) (tag : Str) : Bool :=
  match ancestors with
  | l :: b :: _ :: _ => tag = c!"ref" && l = c!"ref-list" && b = c!"back"
  | _ => false

mutual
/-- `root.xpath(JatsXpaths.REF)`. Simplification: no reference contains another one. -/
def refsAt (ancestors : List Str) : JNode → List JNode
  | .mk i g a t cs tl => if isRefAt ancestors g then [.mk i g a t cs tl] else refsAts (g :: ancestors) cs
/-- The same for the children of an element. -/
def refsAts (ancestors : List Str) : List JNode → List JNode
  | [] => []
  | n :: ns => refsAt ancestors n ++ refsAts ancestors ns
end

/-- The references of a document. -/
def refsOf (root : JNode) : List JNode := refsAt [] root

mutual
/-- Change all references, in document order. -/
def mapRefsAt (f : JNode → Except Err JNode) (ancestors : List Str) : JNode → Except Err JNode
  | .mk i g a t cs tl =>
    if isRefAt ancestors g then f (.mk i g a t cs tl)
    else match mapRefsAts f (g :: ancestors) cs with
      | .error e => .error e
      | .ok cs' => .ok (.mk i g a t cs' tl)
/-- The same for the children of an element. -/
def mapRefsAts (f : JNode → Except Err JNode) (ancestors : List Str) : List JNode → Except Err (List JNode)
  | [] => .ok []
  | n :: ns =>
    match mapRefsAt f ancestors n with
    | .error e => .error e
    | .ok n' =>
      match mapRefsAts f ancestors ns with
      | .error e => .error e
      | .ok ns' => .ok (n' :: ns')
end

/-- `fix_jats_xml_node` (fix_jats_xml.py:755-758). -/
def fixJatsNode (env : JatsEnv) (root : JNode) : Except Err JNode := mapRefsAt (fixReference env) [] root

/-- `iter_get_changed_original_references` (fix_jats_xml.py:761-770); `ser` is `etree.tostring`. -/
def changedRefs (ser : JNode → Str) (root original : JNode) : Except Err (List JNode) :=
  if (refsOf root).length ≠ (refsOf original).length then .error .assertionError
  else .ok ((((refsOf root).zip (refsOf original)).filter (fun p => decide (ser p.1 ≠ ser p.2))).map Prod.snd)

/-! ### Meta data (fix_jats_xml.py:773-822) -/

/-- The element for one entry (fix_jats_xml.py:781-785). -/
def metaElement (i : Nat) (key value : Str) : JNode :=
  .mk i c!"custom-meta" [] none
    [.mk i c!"meta-name" [] (some key) [] none, .mk i c!"meta-value" [] (some value) [] none] (some c!"\n")

/-- Append entries to an element (780-785). -/
def addMetaElements (i : Nat) (group : JNode) (entries : List (Str × Str)) : JNode :=
  group.setChildren (group.children ++ entries.map (fun p => metaElement i p.1 p.2))

/-- `add_jats_meta_data` (fix_jats_xml.py:773-785): the first child `custom-meta-group`, if there is one, or a new first
child. New elements have an unused identity. -/
def addMetaData (entries : List (Str × Str)) (root : JNode) : JNode :=
  if entries.isEmpty then root
  else match root.children.findIdx? (fun n => n.tag = c!"custom-meta-group") with
    | some k => root.setChildren (root.children.modify k (fun g => addMetaElements (freshId root) g entries))
    | none =>
      root.setChildren (addMetaElements (freshId root)
        (.mk (freshId root) c!"custom-meta-group" [] (some c!"\n") [] (some c!"\n")) entries :: root.children)

/-- `get_fix_xml_meta_data_dict` (fix_jats_xml.py:788-816); `now` is the text of the time. -/
def metaEntries (ser : JNode → Str) (now : Str) (root original : JNode) (malformed : Bool) :
    Except Err (List (Str × Str)) :=
  match changedRefs ser root original with
  | .error e => .error e
  | .ok changed => .ok [
      (c!"fix-jats-note", c!"This XML file had been modified to fix some of the potential errors."),
      (c!"fix-jats-run-timestamp", now),
      (c!"fix-jats-malformatted-xml", if malformed then c!"true" else c!"false"),
      (c!"fix-jats-changed-reference-count", Nat.toDigits 10 changed.length),
      (c!"fix-jats-changed-reference-ids", joinStr c!"," (changed.map (fun r => r.attrs.getD c!"id" [])))]

/-- `fix_jats_xml_file` (fix_jats_xml.py:825-846) on the data of the file up to writing the result; exceptions of the
parser are reduced to their kind. Simplification: the clone of the document (fix_jats_xml.py:130-131) is
equal to it. -/
def fixJatsFile (env : JatsEnv) (parse : Str → Except Nat JNode) (ser : JNode → Str) (now data : Str) : Except Err JNode :=
  let finish (root : JNode) (malformed : Bool) : Except Err JNode :=
    match fixJatsNode env root with
    | .error e => .error e
    | .ok fixed =>
      match metaEntries ser now fixed root malformed with
      | .error e => .error e
      | .ok entries => .ok (addMetaData entries fixed)
  match parseXml parse false data with
  | .ok root => finish root false
  | .error (.valueError, _) =>
    match parseXml parse true data with
    | .ok root => finish root true
    | .error (e, _) => .error e
  | .error (e, _) => .error e

end Verif
