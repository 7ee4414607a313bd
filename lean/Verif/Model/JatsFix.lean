/-
Model of fix_jats_xml.py: changes to reference elements.
-/
import Verif.Model.JatsText
import Verif.Model.TargetAnnotations

namespace Verif

/-- An `lxml` element of a reference; `id` is its identity.  XML comments and processing
instructions are not modelled. -/
inductive JNode where
  | mk (id : Nat) (tag : Str) (attrs : Dict Str) (text : Option Str) (children : List JNode) (tail : Option Str)

namespace JNode
def id : JNode → Nat | mk i _ _ _ _ _ => i
def tag : JNode → Str | mk _ g _ _ _ _ => g
def attrs : JNode → Dict Str | mk _ _ a _ _ _ => a
def text : JNode → Option Str | mk _ _ _ t _ _ => t
def children : JNode → List JNode | mk _ _ _ _ c _ => c
def tail : JNode → Option Str | mk _ _ _ _ _ t => t
def setAttrs (n : JNode) (a : Dict Str) : JNode := mk n.id n.tag a n.text n.children n.tail
def setText (n : JNode) (t : Option Str) : JNode := mk n.id n.tag n.attrs t n.children n.tail
def setChildren (n : JNode) (c : List JNode) : JNode := mk n.id n.tag n.attrs n.text c n.tail
def setTail (n : JNode) (t : Option Str) : JNode := mk n.id n.tag n.attrs n.text n.children t
end JNode

mutual
/-- `get_text_content(node)` of `sciencebeam_utils` (external): all text inside of an element. -/
def jText : JNode → Str
  | .mk _ _ _ t cs _ => orEmpty t ++ jTexts cs
/-- The texts and tails of children. -/
def jTexts : List JNode → Str
  | [] => []
  | .mk i g a t cs tl :: ns => jText (.mk i g a t cs tl) ++ orEmpty tl ++ jTexts ns
end

mutual
/-- An element and all elements inside, in document order. -/
def jAll : JNode → List JNode
  | .mk i g a t cs tl => .mk i g a t cs tl :: jAlls cs
/-- The same for a list of elements. -/
def jAlls : List JNode → List JNode
  | [] => []
  | n :: ns => jAll n ++ jAlls ns
end

/-- The element `el` where it is in its parent: the text of the parent and the siblings. -/
structure JCtx where
  text : Option Str
  left : List JNode
  el : JNode
  right : List JNode

/-- The first child with identity `i`, between its siblings. -/
def splitAtId (i : Nat) : List JNode → Option (List JNode × JNode × List JNode)
  | [] => none
  | n :: ns =>
    if n.id = i then some ([], n, ns)
    else match splitAtId i ns with
      | none => none
      | some (l, e, r) => some (n :: l, e, r)

/-- A change of an element where it is: the new text and children of the parent, and whether to
stop. -/
abbrev JOp := JCtx → Except Err (Option Str × List JNode × Bool)

mutual
/-- Change the element with identity `i`. -/
def editAt (i : Nat) (f : JOp) : JNode → Except Err (JNode × Bool)
  | .mk j g a t cs tl =>
    match splitAtId i cs with
    | some (l, e, r) =>
      match f ⟨t, l, e, r⟩ with
      | .error x => .error x
      | .ok (t', cs', b) => .ok (.mk j g a t' cs' tl, b)
    | none =>
      match editAts i f cs with
      | .error x => .error x
      | .ok (cs', b) => .ok (.mk j g a t cs' tl, b)
/-- The same for a list of elements. -/
def editAts (i : Nat) (f : JOp) : List JNode → Except Err (List JNode × Bool)
  | [] => .ok ([], false)
  | n :: ns =>
    match editAt i f n with
    | .error x => .error x
    | .ok (n', b) =>
      match editAts i f ns with
      | .error x => .error x
      | .ok (ns', b') => .ok (n' :: ns', b || b')
end

/-- An identity that is not used yet. -/
def freshId (n : JNode) : Nat := ((jAll n).map (·.id)).foldl max 0 + 1

/-- Parameters: the patterns (positions of group 1) and `str.lower`. -/
structure JatsEnv extends JatsTextEnv where
  lower : Str → Str
  piiValid : Str → Option (Nat × Nat)
  piiOther : Str → Option (Nat × Nat)
  pmid : Str → Option (Nat × Nat)
  pmidFix : Str → Option (Nat × Nat)
  pmcid : Str → Option (Nat × Nat)
  wos : Str → Option (Nat × Nat)
  doiUrlPrefix : Str → Option (Nat × Nat)
  /-- `m.start(2)` of the pattern in `find_doi_ext_link_start_end` (fix_jats_xml.py:365-370) -/
  doiExtLink : Str → Option Nat

/-- `get_jats_pub_id_element` (fix_jats_xml.py:139-143). -/
def pubIdElement (i : Nat) (text type : Str) (tail : Option Str) : JNode :=
  .mk i c!"pub-id" [(c!"pub-id-type", type)] (some text) [] tail

/-- XLINK_HREF (fix_jats_xml.py:46-47). -/
def xlinkHref : Str := c!"{http://www.w3.org/1999/xlink}href"

/-- `get_jats_ext_link_element` (fix_jats_xml.py:173-190). -/
def extLinkElement (cc : CharClass) (i : Nat) (text : Str) (tail : Option Str) : JNode :=
  .mk i c!"ext-link" [(c!"ext-link-type", c!"uri"), (xlinkHref, fullCleanedUrl cc text)] (some text) []
    (if truthy tail then tail else none)

/-- `get_previous_text` (fix_jats_xml.py:193-198). -/
def previousText (t : Option Str) (left : List JNode) : Option Str :=
  match left.getLast? with
  | some e => e.tail
  | none => t

/-- `set_previous_text` (fix_jats_xml.py:201-207): the new text of the parent and siblings before. -/
def setPreviousText (t : Option Str) (left : List JNode) (s : Option Str) : Option Str × List JNode :=
  match left.getLast? with
  | some e => (t, left.dropLast ++ [e.setTail s])
  | none => (s, left)

/-- `add_text_to_previous` (fix_jats_xml.py:210-216). -/
def addToPrevious (t : Option Str) (left : List JNode) (s : Str) : Option Str × List JNode :=
  setPreviousText t left (some (orEmpty (previousText t left) ++ s))

/-- `add_text_to_tail_prefix` (fix_jats_xml.py:219-220). -/
def addToTailPrefix (e : JNode) (s : Str) : JNode := e.setTail (some (s ++ orEmpty e.tail))

/-- `find_ext_link_start_end` (fix_jats_xml.py:373-377). -/
def findExtLink (env : JatsEnv) (text : Str) : Nat × Nat :=
  if strIn c!"doi.org" text then (0, (env.doiExtLink text).getD text.length) else (0, text.length)

/-- `change_annotation_to_matching_text` (fix_jats_xml.py:404-420).  Removing an element from its
parent also removes its tail. -/
def changeOp (find : Str → Except Err (Option (Nat × Nat))) : JOp := fun c =>
  match c.el.text with
  | none => .ok (c.text, c.left ++ c.el :: c.right, false)
  | some text =>
    match find text with
    | .error e => .error e
    | .ok none =>
      let (t, l) := addToPrevious c.text c.left text
      .ok (t, l ++ c.right, false)
    | .ok (some (start, stop)) =>
      let (t, l) := addToPrevious c.text c.left (text.take start)
      .ok (t, l ++ addToTailPrefix (c.el.setText (some (sliceStr text start stop))) (text.drop stop) :: c.right, false)

/-- Moving the first character of an element in front of it (fix_jats_xml.py:578-580, 586-588). -/
def moveFirstOut (c : JCtx) : JCtx :=
  if truthy c.el.text then
    let (t, l) := addToPrevious c.text c.left ((orEmpty c.el.text).take 1)
    { c with text := t, left := l, el := c.el.setText (some ((orEmpty c.el.text).drop 1)) }
  else c

/-- Moving the end of the last tail, from position `k`, behind the element
(fix_jats_xml.py:581-583, 599-602). -/
def moveLastOut (e : JNode) (k : Nat) : JNode :=
  match e.children.getLast? with
  | none => e
  | some last =>
    if truthy last.tail then
      addToTailPrefix
        (e.setChildren (e.children.dropLast ++ [last.setTail (some ((orEmpty last.tail).take k))]))
        ((orEmpty last.tail).drop k)
    else e

/-- The length of the tail of the last child. -/
def lastTailLength (e : JNode) : Nat :=
  match e.children.getLast? with
  | none => 0
  | some last => (orEmpty last.tail).length

/-- RIGHT_BY_LEFT_QUOTE_CHAR (fix_jats_xml.py:72-76). -/
def rightByLeftQuote : List (Char × Char) := [('"', '"'), ('‘', '’'), ('“', '’')]

/-- `remove_surrounding_quotes_from_element` (fix_jats_xml.py:572-588). -/
def quotesOp (c : JCtx) : JCtx :=
  let text := jText c.el
  if text.length < 2 then c
  else if hasSurroundingQuotes text 0 text.length then
    let c := moveFirstOut c
    { c with el := moveLastOut c.el (lastTailLength c.el - 1) }
  else match text with
    | [] => c
    | x :: rest =>
      match rightByLeftQuote.find? (fun p => p.1 = x) with
      | none => c
      | some q => if q.2 ∉ rest then moveFirstOut c else c

/-- `remove_training_comma_from_element` (fix_jats_xml.py:591-601). -/
def commaOp (c : JCtx) : JCtx :=
  let text := jText c.el
  let stripped := rstripOf (fun x => x = ',' || x = ' ') text
  if stripped.length = text.length then c
  else { c with el := moveLastOut c.el (lastTailLength c.el + stripped.length - text.length) }

/-- The body of the second loop of `fix_article_title` (fix_jats_xml.py:604-611). -/
def titleQuotesOp : JOp := fun c =>
  let c := commaOp (quotesOp c)
  .ok (c.text, c.left ++ c.el :: c.right, false)

/-- The body of the loop of `replace_doi_annotation_with_ext_link_if_url` (fix_jats_xml.py:621-639). -/
def doiLinkOp (env : JatsEnv) (fresh : Nat) : JOp := fun c =>
  match previousText c.text c.left with
  | none => .error .runtimeError
  | some prev =>
    match env.doiUrlPrefix prev with
    | none => .ok (c.text, c.left ++ c.el :: c.right, false)
    | some (start, _) =>
      match c.el.text with
      | none => .error .typeError
      | some text =>
        let (t, l) := setPreviousText c.text c.left (some (prev.take start))
        .ok (t, l ++ extLinkElement env.cc fresh (prev.drop start ++ text) c.el.tail :: c.right, false)

/-- The body of the first loop of `fix_ext_link` (fix_jats_xml.py:540-556). -/
def splitLinkOp (env : JatsEnv) (fresh : Nat) : JOp := fun c =>
  let hrefs := splitUrl (orEmpty c.el.text)
  let href := c.el.attrs.get? xlinkHref
  if !truthy c.el.text then .ok (c.text, c.left ++ c.el :: c.right, false)
  else if !truthy href || (href ≠ c.el.text && href ≠ some (joinStr ['w'] hrefs)) then
    .ok (c.text, c.left ++ c.el :: c.right, false)
  else
    let el := match hrefs with
      | h :: _ :: _ => (c.el.setText (some h)).setAttrs (c.el.attrs.set xlinkHref h)
      | _ => c.el
    .ok (c.text, c.left ++ el :: (hrefs.drop 1).zipIdx.map (fun p => extLinkElement env.cc (fresh + p.2) p.1 none) ++ c.right,
      false)

/-- The body of the last loop of `fix_ext_link` (fix_jats_xml.py:561-569). -/
def linkHrefOp (env : JatsEnv) : JOp := fun c =>
  let href := c.el.attrs.get? xlinkHref
  let el := if truthy href then
      let se := findExtLink env (orEmpty href)
      c.el.setAttrs (c.el.attrs.set xlinkHref (sliceStr (orEmpty href) se.1 se.2))
    else c.el
  .ok (c.text, c.left ++ el :: c.right, false)

/-- KNOWN_PUB_ID_TYPES (fix_jats_xml.py:104-127). -/
def knownPubIdTypes : List Str :=
  [c!"accession", c!"archive", c!"ark", c!"art-access-id", c!"arxiv", c!"coden", c!"doaj", c!"doi", c!"handle", c!"index",
    c!"isbn", c!"manuscript", c!"medline", c!"mr", c!"other", c!"pii", c!"pmcid", c!"pmid", c!"publisher-id", c!"sici",
    c!"std-designation", c!"zbl"]

/-- The body of the loop of `convert_known_pub_id_type_to_lower_case` (fix_jats_xml.py:727-734). -/
def lowerTypeOp (env : JatsEnv) : JOp := fun c =>
  let type := c.el.attrs.get? c!"pub-id-type"
  let el := if truthy type && env.lower (orEmpty type) ∈ knownPubIdTypes then
      c.el.setAttrs (c.el.attrs.set c!"pub-id-type" (env.lower (orEmpty type)))
    else c.el
  .ok (c.text, c.left ++ el :: c.right, false)

/-- `add_annotation_to_element_tail_if_matching` (fix_jats_xml.py:458-480) on the first child for
which it succeeds (501-507). -/
def addToTails (find : Str → Except Err (Option (Nat × Nat))) (create : Str → Option Str → JNode) :
    List JNode → Except Err (Option (List JNode))
  | [] => .ok none
  | n :: ns =>
    match (if truthy n.tail then find (orEmpty n.tail) else .ok none) with
    | .error e => .error e
    | .ok (some (start, stop)) =>
      let text := orEmpty n.tail
      .ok (some (n.setTail (some (text.take start)) :: create (sliceStr text start stop) (some (text.drop stop)) :: ns))
    | .ok none =>
      match addToTails find create ns with
      | .error e => .error e
      | .ok none => .ok none
      | .ok (some ns') => .ok (some (n :: ns'))

/-- `add_annotation_to_element_text_if_matching` with `as_next_sibling` on the first comment for
which it succeeds (fix_jats_xml.py:501-509). -/
def addToComments (find : Str → Except Err (Option (Nat × Nat))) (create : Str → Option Str → JNode) :
    List JNode → Except Err (List JNode)
  | [] => .ok []
  | n :: ns =>
    match (if n.tag = c!"comment" ∧ truthy n.text = true then find (orEmpty n.text) else .ok none) with
    | .error e => .error e
    | .ok (some (start, stop)) =>
      let text := orEmpty n.text
      .ok (n.setText (some (text.take start)) :: create (sliceStr text start stop) (some (text.drop stop)) :: ns)
    | .ok none =>
      match addToComments find create ns with
      | .error e => .error e
      | .ok ns' => .ok (n :: ns')

/-- `add_annotation_to_element_if_matching` (fix_jats_xml.py:483-510). -/
def addAnnotation (find : Str → Except Err (Option (Nat × Nat))) (create : Str → Option Str → JNode) (parseComment : Bool)
    (e : JNode) : Except Err (JNode × Bool) :=
  match (if truthy e.text then find (orEmpty e.text) else .ok none) with
  | .error x => .error x
  | .ok (some (start, stop)) =>
    let text := orEmpty e.text
    .ok ((e.setText (some (text.take start))).setChildren
      (create (sliceStr text start stop) (some (text.drop stop)) :: e.children), true)
  | .ok none =>
    match addToTails find create e.children with
    | .error x => .error x
    | .ok (some cs) => .ok (e.setChildren cs, true)
    | .ok none =>
      if parseComment then
        match addToComments find create e.children with
        | .error x => .error x
        | .ok cs => .ok (e.setChildren cs, false)
      else .ok (e, false)

/-- `add_annotation_to_reference_element_if_matching` (fix_jats_xml.py:513-523), for one
mixed-citation; stops at the first success. -/
def addOp (find : Str → Except Err (Option (Nat × Nat))) (create : Str → Option Str → JNode) (parseComment : Bool) : JOp := fun c =>
  match addAnnotation find create parseComment c.el with
  | .error x => .error x
  | .ok (e, stop) => .ok (c.text, c.left ++ e :: c.right, stop)

/-- The steps of `fix_reference`. -/
inductive JatsFix
  | lowerType | title | titleQuotes | doi | doiLink | splitLink | linkText | linkHref | pii | pmid | pmcid
  | addPmid | addPmcid | addPii | addPiiOther | addWos | addDoi
  deriving DecidableEq

/-- `pub-id` elements of a type. -/
def isPubId (type : Str) (n : JNode) : Bool := n.tag = c!"pub-id" && n.attrs.get? c!"pub-id-type" = some type

/-- Identities of the elements inside `root` with the property `p`: the result of `root.xpath`. -/
def selectIds (p : JNode → Bool) (root : JNode) : List Nat := ((jAlls root.children).filter p).map (·.id)

/-- The mixed citations, unless there are elements with property `p` already. -/
def citationsUnless (p : JNode → Bool) (root : JNode) : List Nat :=
  if (selectIds p root).isEmpty then selectIds (fun n => n.tag = c!"mixed-citation") root else []

/-- The elements a step is applied to (fix_jats_xml.py:50-60 and the functions citing them). -/
def fixSelect (k : JatsFix) (root : JNode) : List Nat :=
  match k with
  | .lowerType => selectIds (fun n => n.tag = c!"pub-id") root
  | .title | .titleQuotes => selectIds (fun n => n.tag = c!"article-title") root
  | .doi | .doiLink => selectIds (isPubId c!"doi") root
  | .splitLink | .linkText | .linkHref => selectIds (fun n => n.tag = c!"ext-link") root
  | .pii => selectIds (isPubId c!"pii") root
  | .pmid => selectIds (isPubId c!"pmid") root
  | .pmcid => selectIds (isPubId c!"pmcid") root
  | .addPmid => citationsUnless (isPubId c!"pmid") root
  | .addPmcid => citationsUnless (isPubId c!"pmcid") root
  | .addPii | .addPiiOther => citationsUnless (isPubId c!"pii") root
  | .addWos => citationsUnless (fun _ => false) root
  | .addDoi => citationsUnless (isPubId c!"doi") root

/-- The function finding the range for a step (fix_jats_xml.py:605-725). -/
def fixFind (env : JatsEnv) (k : JatsFix) (text : Str) : Except Err (Option (Nat × Nat)) :=
  match k with
  | .title => .ok (some (findArticleTitle env.toJatsTextEnv text))
  | .doi | .addDoi => findDoi env.toJatsTextEnv text
  | .linkText => .ok (some (findExtLink env text))
  | .pii | .addPii => .ok (env.piiValid text)
  | .pmid => .ok (env.pmidFix text)
  | .pmcid | .addPmcid => .ok (env.pmcid text)
  | .addPmid => .ok (env.pmid text)
  | .addPiiOther => .ok (env.piiOther text)
  | .addWos => .ok (env.wos text)
  | _ => .ok none

/-- What a step does to one element. -/
def fixOp (env : JatsEnv) (k : JatsFix) (fresh : Nat) : JOp :=
  match k with
  | .lowerType => lowerTypeOp env
  | .title | .doi | .linkText | .pii | .pmid | .pmcid => changeOp (fixFind env k)
  | .titleQuotes => titleQuotesOp
  | .doiLink => doiLinkOp env fresh
  | .splitLink => splitLinkOp env fresh
  | .linkHref => linkHrefOp env
  | .addPmid => addOp (fixFind env k) (fun s => pubIdElement fresh s c!"pmid") true
  | .addPmcid => addOp (fixFind env k) (fun s => pubIdElement fresh s c!"pmcid") true
  | .addPii => addOp (fixFind env k) (fun s => pubIdElement fresh s c!"pii") false
  | .addPiiOther => addOp (fixFind env k) (fun s => pubIdElement fresh s c!"other") false
  | .addWos => addOp (fixFind env k) (fun s => pubIdElement fresh s c!"other") true
  | .addDoi => addOp (fixFind env k) (fun s => pubIdElement fresh s c!"doi") false

/-- The loop over the elements of a step.  Simplification: an element inside one that has been removed by the same
step is skipped; the code changes it although it is no longer part of the document. -/
def runIds (env : JatsEnv) (k : JatsFix) : List Nat → JNode → Except Err JNode
  | [], n => .ok n
  | i :: is, n =>
    match editAt i (fixOp env k (freshId n)) n with
    | .error x => .error x
    | .ok (n', stop) => if stop then .ok n' else runIds env k is n'

/-- One step of `fix_reference`. -/
def runFix (env : JatsEnv) (k : JatsFix) (n : JNode) : Except Err JNode := runIds env k (fixSelect k n) n

/-- Several steps. -/
def runFixes (env : JatsEnv) : List JatsFix → JNode → Except Err JNode
  | [], n => .ok n
  | k :: ks, n =>
    match runFix env k n with
    | .error x => .error x
    | .ok n' => runFixes env ks n'

/-- The order of the steps (fix_jats_xml.py:737-752, 539-569, 605-612). -/
def fixSteps : List JatsFix :=
  [.lowerType, .title, .titleQuotes, .doi, .doiLink, .splitLink, .linkText, .linkHref, .pii, .pmid, .pmcid,
    .addPmid, .addPmcid, .addPii, .addPiiOther, .addWos, .addDoi]

/-- `fix_reference` (fix_jats_xml.py:737-752). -/
def fixReference (env : JatsEnv) (n : JNode) : Except Err JNode := runFixes env fixSteps n

end Verif
