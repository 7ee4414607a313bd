/-
Model of annotation/target_annotation.py and the parts of core/annotation/target_annotation.py
it uses: from the XML of a manuscript to the values to look for.
-/
import Verif.Model.TargetText
import Verif.Model.PyList
import Verif.Model.SimpleMatching

namespace Verif

/-- An `lxml` element of the source document; `id` is its identity. -/
inductive XNode where
  | mk (id : Nat) (text : Option Str) (children : List XNode) (tail : Option Str)

namespace XNode
def id : XNode → Nat | mk i _ _ _ => i
def text : XNode → Option Str | mk _ t _ _ => t
def children : XNode → List XNode | mk _ _ c _ => c
def tail : XNode → Option Str | mk _ _ _ t => t
end XNode

/-- The texts that are not `None`. -/
def someText : Option Str → List Str
  | none => []
  | some s => [s]

mutual
/-- `node.itertext()` (lxml): the text of an element and of everything inside. -/
def nodeTexts : XNode → List Str
  | .mk _ t cs _ => someText t ++ childrenTexts cs
/-- The same for a list of children, with their tails. -/
def childrenTexts : List XNode → List Str
  | [] => []
  | .mk i t cs tl :: ns => nodeTexts (.mk i t cs tl) ++ someText tl ++ childrenTexts ns
end

mutual
/-- `iter_text_content_and_exclude` with something to exclude (utils/xml.py:32-38); `exclude` are
the identities of the excluded elements. -/
def textsExcluding (exclude : List Nat) : XNode → List Str
  | .mk _ t cs _ => someText t ++ childrenTextsExcluding exclude cs
/-- The loop over the children (utils/xml.py:34-38). -/
def childrenTextsExcluding (exclude : List Nat) : List XNode → List Str
  | [] => []
  | .mk i t cs tl :: ns =>
    (if i ∉ exclude then textsExcluding exclude (.mk i t cs tl) else []) ++
      (if truthy tl then someText tl else []) ++ childrenTextsExcluding exclude ns
end

/-- `iter_text_content_and_exclude` (utils/xml.py:26-38). -/
def iterTextExclude (exclude : List Nat) (n : XNode) : List Str :=
  if exclude.isEmpty then nodeTexts n else textsExcluding exclude n

mutual
/-- `contains_raw_text` (annotation/target_annotation.py:40-48). -/
def containsRawText (cc : CharClass) : XNode → Bool
  | .mk _ t cs _ => !isBlank cc t || childrenRawText cc cs
/-- The loop over the children. -/
def childrenRawText (cc : CharClass) : List XNode → Bool
  | [] => false
  | .mk i t cs tl :: ns =>
    !isBlank cc tl || (!cs.isEmpty && containsRawText cc (.mk i t cs tl)) || childrenRawText cc ns
end

/-- `is_ends_with_word` (annotation/target_annotation.py:51-52): `re.match(r'.*\w$', text)`, where
`.` is no line feed and `$` is the end or the position before a final line feed. -/
def isEndsWithWord (cc : CharClass) (s : Str) : Bool :=
  let s' := if s.getLast? = some '\n' then s.dropLast else s
  '\n' ∉ s' && (s'.getLast?.map cc.isWord).getD false

/-- `is_starts_with_word` (annotation/target_annotation.py:55-56): `re.match(r'^\w.*', text)`. -/
def isStartsWithWord (cc : CharClass) (s : Str) : Bool := (s.head?.map cc.isWord).getD false

/-- The loop of `get_raw_text_content` (annotation/target_annotation.py:66-70); `last` is
`text_list[-1]`. -/
def rawTextLoop (cc : CharClass) : Option Str → List Str → Str
  | _, [] => []
  | last, t :: ts =>
    let sep := match last with
      | none => []
      | some l => if isEndsWithWord cc l && isStartsWithWord cc t then [' '] else []
    sep ++ t ++ rawTextLoop cc (some t) ts

/-- `get_raw_text_content` (annotation/target_annotation.py:65-71). -/
def rawTextContent (cc : CharClass) (exclude : List Nat) (n : XNode) : Str :=
  rawTextLoop cc none (iterTextExclude exclude n)

/-- An item of `.children.concat`, or the minimum or maximum of an item of `.children.range`. -/
structure ChildSource where
  xpath : Option Str := none
  value : Option Str := none

/-- An item of `.children.range`. -/
structure RangeItem where
  min : ChildSource
  max : ChildSource
  standalone : Bool := false

/-- External functions: XPath evaluation, regular expressions, JSON, the text functions of
`sciencebeam_utils.utils.xml` and number parsing. -/
structure TargetEnv where
  cc : CharClass
  /-- `element.xpath(s)`, for expressions selecting elements -/
  xpath : XNode → Str → List XNode
  /-- `element.getparent()`, by identity -/
  parent : XNode → Option Nat
  /-- `get_text_content(node, exclude)` -/
  textContent : XNode → List Nat → Str
  /-- `get_immediate_text(node)` -/
  immediateText : XNode → List (Option Str)
  /-- `re.compile(p).match(s)` with its group 1 -/
  reMatch : Str → Str → Option (Option Str)
  /-- positions of group 1 of `re.compile(p).finditer(s)` -/
  reSpans : Str → Str → List (Nat × Nat)
  /-- `json.loads` of `.children.concat` -/
  jsonConcat : Str → Except Err (List (List ChildSource))
  /-- `json.loads` of `.children.range` -/
  jsonRange : Str → Except Err (List RangeItem)
  /-- `int(s)` -/
  parseInt : Str → Except Err Int
  /-- `str.lower` -/
  lower : Str → Str

/-- `strip_all` of `sciencebeam_utils` (external). -/
def stripAll (cc : CharClass) (l : List (Option Str)) : List Str := l.map (fun s => strip cc (orEmpty s))

/-- `filter_truthy` of `sciencebeam_utils` (external), on strings. -/
def filterTruthy (l : List Str) : List Str := l.filter (fun s => !s.isEmpty)

/-- `get_stripped_text_content` (core/annotation/target_annotation.py:106-107). -/
def strippedTextContent (env : TargetEnv) (n : XNode) (exclude : List Nat) : Str :=
  stripWhitespace (strip env.cc (env.textContent n exclude))

/-- `exclude_parents` (core/annotation/target_annotation.py:144-148). -/
def excludeParents (env : TargetEnv) (ns : List XNode) : List XNode :=
  ns.filter (fun n => n.id ∉ ns.filterMap env.parent)

/-- `extract_children_source_list` (core/annotation/target_annotation.py:151-172): values and the
identities of the used nodes. -/
def childrenSourceList (env : TargetEnv) (parent : XNode) : List ChildSource → Option (List Str × List Nat)
  | [] => some ([], [])
  | src :: srcs =>
    match (if truthy src.xpath then
        let ns := excludeParents env (env.xpath parent (orEmpty src.xpath))
        if ns.isEmpty then none
        else some (joinStr [' '] (ns.map (fun n => strippedTextContent env n [])), ns.map (·.id))
      else some (orEmpty src.value, [])) with
    | none => none
    | some (v, used) =>
      match childrenSourceList env parent srcs with
      | none => none
      | some (vs, useds) => some (v :: vs, used ++ useds)

/-- The result of `extract_children_source_list`: empty if an expression selects nothing. -/
def extractChildrenSourceList (env : TargetEnv) (parent : XNode) (srcs : List ChildSource) : List Str × List Nat :=
  (childrenSourceList env parent srcs).getD ([], [])

/-- `extract_children_concat` (core/annotation/target_annotation.py:175-186). -/
def extractChildrenConcat (env : TargetEnv) (parent : XNode) : List (List ChildSource) → List Str × List Nat
  | [] => ([], [])
  | item :: items =>
    let (vs, used) := extractChildrenSourceList env parent item
    let (rest, useds) := extractChildrenConcat env parent items
    ((if vs.isEmpty then [] else [vs.flatten]) ++ rest, used ++ useds)

/-- Python `s.isdigit()`. -/
def strIsDigit (cc : CharClass) (s : Str) : Bool := !s.isEmpty && s.all cc.isDigit

/-- `[str(x) for x in range(a, b + 1)]` for natural numbers. -/
def rangeStrs (a b : Nat) : List Str := (List.range (b + 1 - a)).map (fun i => Nat.toDigits 10 (a + i))

/-- The outcome of `extract_children_range`: values, standalone values and used nodes. -/
structure RangeResult where
  values : List Str := []
  standalone : List Str := []
  used : List Nat := []

/-- `extract_children_range` (core/annotation/target_annotation.py:189-210).  `int` of digits is
not negative. -/
def extractChildrenRange (env : TargetEnv) (parent : XNode) : List RangeItem → Except Err RangeResult
  | [] => .ok {}
  | item :: items =>
    let (vs, used) := extractChildrenSourceList env parent [item.min, item.max]
    match vs with
    | [v1, v2] =>
      let s1 := strip env.cc v1
      let s2 := strip env.cc v2
      if strIsDigit env.cc s1 && strIsDigit env.cc s2 then
        match env.parseInt s1, env.parseInt s2 with
        | .ok a, .ok b =>
          match extractChildrenRange env parent items with
          | .error e => .error e
          | .ok r =>
            let rs := rangeStrs a.toNat b.toNat
            .ok { values := (if item.standalone then [] else rs) ++ r.values,
                  standalone := (if item.standalone then rs else []) ++ r.standalone,
                  used := used ++ r.used }
        | .error e, _ => .error e
        | _, .error e => .error e
      else extractChildrenRange env parent items
    | _ => extractChildrenRange env parent items

/-- `parse_xpaths` (core/annotation/target_annotation.py:213-214). -/
def parseXpaths (cc : CharClass) : Option Str → Option (List Str)
  | none => none
  | some [] => none
  | some (c :: s) => some ((splitOn '\n' (strip cc (c :: s))).map (strip cc))

/-- `match_xpaths` (annotation/target_annotation.py:59-62). -/
def matchXpaths (env : TargetEnv) (parent : XNode) (xpaths : Option (List Str)) : List XNode :=
  (xpaths.getD []).flatMap (env.xpath parent)

/-- The configuration of a field, from the mapping (annotation/target_annotation.py:108-142). -/
structure FieldCfg where
  matchMultiple : Bool
  bonding : Bool
  requireNext : Bool
  unmatchedParentText : Bool
  ignore : Option (List Str)
  children : Option (List Str)
  concat : List (List ChildSource)
  range : List RangeItem
  regex : Option Str
  extractRegex : Option Str
  priority : Int
  subXpaths : Dict Str
  useRawText : Option Bool
  xpaths : Option (List Str)

/-- `extract_children` (core/annotation/target_annotation.py:221-252): texts and standalone
values. -/
def extractChildTexts (env : TargetEnv) (parent : XNode) (cfg : FieldCfg) : Except Err (List Str × List Str) :=
  let (concatValues, concatUsed) := extractChildrenConcat env parent cfg.concat
  match extractChildrenRange env parent cfg.range with
  | .error e => .error e
  | .ok r =>
    let used := concatUsed ++ r.used
    let other := (matchXpaths env parent cfg.children).filter (fun n => n.id ∉ used)
    let leaves := excludeParents env other
    let texts := filterTruthy (stripAll env.cc
      ((leaves.map (fun n => some (strippedTextContent env n []))) ++ (concatValues ++ r.values).map some))
    let texts := if leaves.length = other.length then texts
      else texts ++ (other.filter (fun n => n.id ∉ leaves.map (·.id))).flatMap
        (fun n => filterTruthy (stripAll env.cc (env.immediateText n)))
    let texts := if cfg.unmatchedParentText then
        let v := strip env.cc (strippedTextContent env parent (other.map (·.id) ++ used))
        if !v.isEmpty && v ∉ texts then texts ++ [v] else texts
      else texts
    .ok (texts, r.standalone)

/-- `apply_pattern` (core/annotation/target_annotation.py:129-134); a group that did not
participate is `None`, which the caller removes like an empty text. -/
def applyPattern (env : TargetEnv) (p s : Str) : Str :=
  match env.reMatch p s with
  | some g => orEmpty g
  | none => s

/-- `get_prefixed_dict_values` and `get_sub_mapping` (core/annotation/target_annotation.py:259-272). -/
def getSubMapping (mapping : Dict Str) (tag : Str) : Dict Str :=
  let pre := tag ++ c!".sub" ++ c!"."
  (Dict.ofPairs ((mapping.filter (fun p => startsWith pre p.1)).map (fun p => (p.1.drop pre.length, p.2)))).filter
    (fun p => '.' ∉ p.1)

/-- A list with one text is a text. -/
def TargetValue.ofList : List Str → TargetValue
  | [s] => .one s
  | l => .many l

/-- The values of one sub field (core/annotation/target_annotation.py:320-327). -/
def subFieldValues (env : TargetEnv) (e : XNode) (xpath : Str) (extract : Option Str) : List TargetValue :=
  (env.xpath e xpath).filterMap (fun n =>
    let v := strippedTextContent env n []
    let v := if v.isEmpty then v else strip env.cc (stripWhitespace v)
    if v.isEmpty then none
    else if truthy extract then
      let l := extractUsingRegex env.cc v (env.reSpans (orEmpty extract) v)
      if l = [[]] then none else some (.ofList l)
    else some (.one v))

/-- `extract_sub_annotations` (core/annotation/target_annotation.py:304-327): names and values. -/
def extractSubAnnotations (env : TargetEnv) (e : XNode) (subXpaths : Dict Str) (mapping : Dict Str) (key : Str) :
    List (Str × TargetValue) :=
  subXpaths.flatMap (fun p =>
    (subFieldValues env e p.2 (mapping.get? (key ++ c!".sub" ++ c!"." ++ p.1 ++ c!".extract-regex"))).map
      (fun v => (p.1, v)))

/-- `strtobool` (`distutils.util`, standard library). -/
def strtobool (lower : Str → Str) (s : Str) : Except Err Bool :=
  if lower s ∈ [c!"y", c!"yes", c!"t", c!"true", c!"on", c!"1"] then .ok true
  else if lower s ∈ [c!"n", c!"no", c!"f", c!"false", c!"off", c!"0"] then .ok false
  else .error .valueError

/-- `get_mapping_flag` (annotation/target_annotation.py:88-89). -/
def mappingFlag (mapping : Dict Str) (k suffix : Str) : Bool := mapping.get? (k ++ suffix) = some c!"true"

/-- `parse_json_with_default(s, [])` (core/annotation/target_annotation.py:255-256). -/
def jsonWithDefault {α : Type} (parse : Str → Except Err (List α)) (s : Option Str) : Except Err (List α) :=
  if truthy s then parse (orEmpty s) else .ok []

/-- The configuration of the field `k` (annotation/target_annotation.py:108-142). -/
def fieldCfg (env : TargetEnv) (mapping : Dict Str) (k : Str) : Except Err FieldCfg :=
  match jsonWithDefault env.jsonConcat (mapping.get? (k ++ c!".children.concat")) with
  | .error e => .error e
  | .ok concat =>
    match jsonWithDefault env.jsonRange (mapping.get? (k ++ c!".children.range")) with
    | .error e => .error e
    | .ok range =>
      match env.parseInt (mapping.getD (k ++ c!".priority") c!"0") with
      | .error e => .error e
      | .ok priority =>
        match (if truthy (mapping.get? (k ++ c!".use-raw-text")) then
            (strtobool env.lower (orEmpty (mapping.get? (k ++ c!".use-raw-text")))).map some else .ok none) with
        | .error e => .error e
        | .ok useRaw => .ok {
            matchMultiple := mappingFlag mapping k c!".match-multiple"
            bonding := mappingFlag mapping k c!".bonding"
            requireNext := mappingFlag mapping k c!".require-next"
            unmatchedParentText := mappingFlag mapping k c!".unmatched-parent-text"
            ignore := parseXpaths env.cc (mapping.get? (k ++ c!".ignore"))
            children := parseXpaths env.cc (mapping.get? (k ++ c!".children"))
            concat := concat
            range := range
            regex := mapping.get? (k ++ c!".regex")
            extractRegex := mapping.get? (k ++ c!".extract-regex")
            priority := priority
            subXpaths := getSubMapping mapping k
            useRawText := useRaw
            xpaths := parseXpaths env.cc (mapping.get? k) }

/-- The texts and standalone values of a matched element before the patterns are applied
(annotation/target_annotation.py:148-170). -/
def elementTexts (env : TargetEnv) (cfg : FieldCfg) (e : XNode) : Except Err (List Str × List Str) :=
  let useRaw := cfg.useRawText.getD (containsRawText env.cc e)
  if (cfg.children.getD []).isEmpty = false ∧ (cfg.children ≠ some [c!".//*"] ∨ useRaw = false) then
    extractChildTexts env e cfg
  else
    .ok (filterTruthy [strip env.cc (rawTextContent env.cc ((matchXpaths env e cfg.ignore).map (·.id)) e)], [])

/-- The patterns (annotation/target_annotation.py:176-185), with the results flattened. -/
def applyPatterns (env : TargetEnv) (cfg : FieldCfg) (texts : List Str) : List Str :=
  let texts := if truthy cfg.regex then filterTruthy (texts.map (applyPattern env (orEmpty cfg.regex))) else texts
  if truthy cfg.extractRegex then
    ((texts.map (fun s => extractUsingRegex env.cc s (env.reSpans (orEmpty cfg.extractRegex) s))).filter
      (fun l => l ≠ [[]])).flatten
  else texts

/-- A target annotation with its options. -/
structure TargetItem where
  target : Target
  matchMultiple : Bool
  bonding : Bool
  requireNext : Bool

/-- The key target annotations are sorted by: `(-priority, e_pos)` or `(-priority, e_pos, i)`. -/
structure TargetKey where
  negPriority : Int
  pos : Nat
  index : Option Nat
  deriving DecidableEq

/-- Order of these keys as Python tuples. -/
def TargetKey.le (a b : TargetKey) : Bool :=
  if a.negPriority = b.negPriority then
    if a.pos = b.pos then
      match a.index, b.index with
      | none, _ => true
      | some _, none => false
      | some i, some j => i ≤ j
    else a.pos < b.pos
  else a.negPriority < b.negPriority

/-- `sorted(text_content_list, key=lambda s: -len(s))` unless there is a single text
(annotation/target_annotation.py:187-191). -/
def annotationValue (texts : List Str) : TargetValue :=
  match texts with
  | [s] => .one s
  | l => .many (sortBy (fun a b => decide (b.length ≤ a.length)) l)

/-- The target annotations for the element `e` matched by field `k`, with their keys
(annotation/target_annotation.py:144-215). -/
def elementAnnotations (env : TargetEnv) (mapping : Dict Str) (k : Str) (cfg : FieldCfg) (pos : Nat) (e : XNode) :
    Except Err (List (TargetKey × TargetItem)) :=
  match elementTexts env cfg e with
  | .error x => .error x
  | .ok (texts, standalone) =>
    let subs := extractSubAnnotations env e cfg.subXpaths mapping k
    let texts := applyPatterns env cfg texts
    .ok ((if texts.isEmpty then [] else
        [(⟨-cfg.priority, pos, none⟩,
          ⟨⟨k, annotationValue texts, subs⟩, cfg.matchMultiple, cfg.bonding, cfg.requireNext⟩)]) ++
      standalone.zipIdx.map (fun p =>
        (⟨-cfg.priority, pos, some p.2⟩, ⟨⟨k, .one p.1, subs⟩, cfg.matchMultiple, cfg.bonding, false⟩)))

mutual
/-- Identities in the order of `xml_root.iter()`. -/
def nodeIds : XNode → List Nat
  | .mk i _ cs _ => i :: nodeIdsList cs
/-- The same for a list of nodes. -/
def nodeIdsList : List XNode → List Nat
  | [] => []
  | n :: ns => nodeIds n ++ nodeIdsList ns
end

/-- All annotations of the matches of a field (annotation/target_annotation.py:143-215). -/
def fieldAnnotationsLoop (env : TargetEnv) (mapping : Dict Str) (k : Str) (cfg : FieldCfg) (pos : XNode → Nat) :
    List XNode → Except Err (List (TargetKey × TargetItem))
  | [] => .ok []
  | e :: es =>
    match elementAnnotations env mapping k cfg (pos e) e with
    | .error x => .error x
    | .ok as =>
      match fieldAnnotationsLoop env mapping k cfg pos es with
      | .error x => .error x
      | .ok rest => .ok (as ++ rest)

/-- The loop over the fields (annotation/target_annotation.py:107-215). -/
def fieldsAnnotations (env : TargetEnv) (mapping : Dict Str) (root : XNode) (pos : XNode → Nat) :
    List Str → Except Err (List (TargetKey × TargetItem))
  | [] => .ok []
  | k :: ks =>
    match fieldCfg env mapping k with
    | .error x => .error x
    | .ok cfg =>
      match fieldAnnotationsLoop env mapping k cfg pos (matchXpaths env root cfg.xpaths) with
      | .error x => .error x
      | .ok as =>
        match fieldsAnnotations env mapping root pos ks with
        | .error x => .error x
        | .ok rest => .ok (as ++ rest)

/-- `xml_root_to_target_annotations` (annotation/target_annotation.py:78-230).  `rootTag` is the tag
of `root`.  An element selected by an expression is assumed to be in the document (`e_pos` is not
`None`).  The mapping is a dictionary (`parse_xml_mapping`), which has no `sections()`, so that making the message
for an unknown root raises an `AttributeError` instead of the intended exception (79-82). -/
def xmlRootToTargetAnnotations (env : TargetEnv) (xmlMapping : Dict (Dict Str)) (rootTag : Str) (root : XNode) :
    Except Err (List TargetItem) :=
  match xmlMapping.get? rootTag with
  | none => .error .attributeError
  | some mapping =>
    let fields := (mapping.map (·.1)).filter (fun k => '.' ∉ k)
    match fieldsAnnotations env mapping root (fun n => (nodeIds root).idxOf n.id) fields with
    | .error x => .error x
    | .ok found => .ok ((sortBy (fun a b => TargetKey.le a.1 b.1) found).map (·.2))

end Verif
