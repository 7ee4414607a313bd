/-
Model of loading a TEI training document: extraction of lines of tokens from the container
elements (`structured_document/grobid_training_tei.py:249-333`).
-/
import Verif.Model.TeiToken

namespace Verif

/-- `TeiTagNames.LB` (structured_document/grobid_training_tei.py:69-70). -/
def lbTag : Str := c!"lb"

/-- `_node_to_tag_expression` (structured_document/grobid_training_tei.py:262-268). -/
def nodeToTagExpression (tag : Str) (attrib : Dict Str) : Except Err Str :=
  match attrib with
  | [] => .ok tag
  | [(k, v)] => .ok (tag ++ c!"[@" ++ k ++ c!"=\"" ++ v ++ c!"\"]")
  | _ :: _ :: _ => .error .valueError

/-- `has_direct_text` (structured_document/grobid_training_tei.py:271-277). -/
def hasDirectText (cc : CharClass) (text : Option Str) (children : List Elem) : Bool :=
  !isBlank cc text || children.any (fun c => !isBlank cc c.tail)

/-- `'/'.join(current_path) if current_path else None`
(structured_document/grobid_training_tei.py:288). -/
def pathTag (path : List Str) : Option Str :=
  if path.isEmpty then none else some (joinWith c!"/" path)

mutual
/-- `_iter_extract_lines_from_element` (structured_document/grobid_training_tei.py:280-317):
the lines yielded and the line buffer afterwards.  The parameters `parent_tagged_path` and
`begin_tag` are only passed through by the code and therefore left out. -/
def extractElem (cc : CharClass) (rootPaths : List Str) :
    Elem → List Str → Buf → Except Err (List (List Tok) × Buf)
  | .mk _ _ text children tail, path, b =>
    let previousTag := b.nextTag
    let currentTag := pathTag path
    let b1 :=
      if hasDirectText cc text children || currentTag.any (fun t => rootPaths.contains t) then
        if truthy previousTag then b.setNextSub currentTag else b.setNextTag currentTag
      else b
    let b2 := b1.appendText cc text
    match extractChildren cc rootPaths children path b2 with
    | .error e => .error e
    | .ok (lines, b3) =>
      let b4 := if truthy previousTag then b3.resetNextSub else b3.resetNextTag
      .ok (lines, b4.appendText cc tail)
/-- The loop over the children (299-311). -/
def extractChildren (cc : CharClass) (rootPaths : List Str) :
    List Elem → List Str → Buf → Except Err (List (List Tok) × Buf)
  | [], _, b => .ok ([], b)
  | .mk tag attrib text children tail :: es, path, b =>
    let flushed := if tag = lbTag then [b.flush.1] else []
    let b1 := if tag = lbTag then b.flush.2 else b
    match nodeToTagExpression tag attrib with
    | .error e => .error e
    | .ok expr =>
      match extractElem cc rootPaths (.mk tag attrib text children tail) (path ++ [expr]) b1 with
      | .error e => .error e
      | .ok (lines1, b2) =>
        match extractChildren cc rootPaths es path b2 with
        | .error e => .error e
        | .ok (lines2, b3) => .ok (flushed ++ lines1 ++ lines2, b3)
end

/-- The loop of `_iter_extract_lines_from_container_elements`
(structured_document/grobid_training_tei.py:320-333). -/
def extractContainersFrom (cc : CharClass) (rootPaths : List Str) :
    List Elem → Buf → Except Err (List (List Tok))
  | [], _ => .ok []
  | e :: es, b =>
    match extractElem cc rootPaths e [] b with
    | .error err => .error err
    | .ok (lines, b1) =>
      let flushed := if b1.rev.isEmpty then [] else [b1.flush.1]
      let b2 := if b1.rev.isEmpty then b1 else b1.flush.2
      match extractContainersFrom cc rootPaths es b2 with
      | .error err => .error err
      | .ok rest => .ok (lines ++ flushed ++ rest)

/-- `_iter_extract_lines_from_container_elements` (320-333). -/
def extractContainers (cc : CharClass) (rootPaths : List Str) (es : List Elem) :
    Except Err (List (List Tok)) :=
  extractContainersFrom cc rootPaths es Buf.empty

end Verif
