/-
Model of the tokens and the tokeniser of `structured_document/grobid_training_tei.py`.
-/
import Verif.Model.Tags
import Verif.Model.Xml

namespace Verif

/-- `SUB_LEVEL` (structured_document/grobid_training_tei.py:41). -/
def subLevel : Nat := 2
/-- `SUB_TAG_ATTRIB_NAME` (structured_document/grobid_training_tei.py:42). -/
def subTagAttribName : Str := c!"level2_tag"
/-- `PRESERVED_TAG_ATTRIB_NAME` (structured_document/grobid_training_tei.py:43). -/
def preservedTagAttribName : Str := c!"preserved_tag"
/-- `PRESERVED_SUB_TAG_ATTRIB_NAME` (structured_document/grobid_training_tei.py:44-47). -/
def preservedSubTagAttribName : Str := c!"level2_preserved_tag"

/-- The two sub level names are what `get_scoped_attrib_name(name, level=2)` computes. -/
theorem subTagAttribName_eq : subTagAttribName = scopedAttribName tagAttribName none (some 2) := rfl
theorem preservedSubTagAttribName_eq :
    preservedSubTagAttribName = scopedAttribName preservedTagAttribName none (some 2) := rfl

/-- `TeiText` / `TeiSpace` (structured_document/grobid_training_tei.py:79-117).  `isSpace`
tells whether the object is a `TeiSpace`; `stripped_text` is recomputed from `text`; the
`line` back reference is part of the document (`Verif.Model.TeiDoc`). -/
structure Tok where
  text : Str
  isSpace : Bool
  attrib : Dict Str
  whitespace : Option Str
  deriving DecidableEq

/-- `TeiText.stripped_text` (structured_document/grobid_training_tei.py:89). -/
def Tok.strippedText (cc : CharClass) (t : Tok) : Str := strip cc t.text

/-- `_iter_split_lower_to_upper_case` (structured_document/grobid_training_tei.py:224-231),
after the first character; `acc` is `text[start:index]`, `prev` is `text[index - 1]`. -/
def splitCaseAux (cc : CharClass) (prev : Char) (acc : Str) : Str → List Str
  | [] => if acc.isEmpty then [] else [acc]
  | c :: s =>
    if cc.isUpper c && cc.isLower prev then acc :: splitCaseAux cc c [c] s
    else splitCaseAux cc c (acc ++ [c]) s

/-- `_iter_split_lower_to_upper_case` (structured_document/grobid_training_tei.py:224-231). -/
def splitCase (cc : CharClass) : Str → List Str
  | [] => []
  | c :: s => splitCaseAux cc c [c] s

/-- `regex.split(r'(\W)', text)`: the non word characters are kept as separate items, between
them the (possibly empty) runs of word characters. -/
def splitNonWord (cc : CharClass) : Str → List Str
  | [] => [[]]
  | c :: s =>
    match splitNonWord cc s with
    | [] => []
    | w :: ws => if cc.isWord c then (c :: w) :: ws else [] :: [c] :: w :: ws

/-- `_tokenize_text` (structured_document/grobid_training_tei.py:234-240). -/
def tokenizeText (cc : CharClass) (text : Str) : List Str :=
  ((splitNonWord cc text).flatMap (splitCase cc)).filter (fun s => !s.isEmpty)

/-- `_to_text_token` (structured_document/grobid_training_tei.py:243-246) together with the
constructor of `TeiText` (80-96). -/
def toTextToken (cc : CharClass) (text : Str) (tag subTag : Option Str) : Tok where
  text := text
  isSpace := (strip cc text).isEmpty
  attrib :=
    let a : Dict Str := match tag with
      | none => []
      | some t => Dict.set [] tagAttribName t
    match subTag with
    | none => a
    | some t => Dict.set a subTagAttribName t
  whitespace := none

/-- `TokenWriter` / `LineBuffer` (structured_document/grobid_training_tei.py:131-201).  The
tokens are kept newest first (`rev`), the Python list is `rev.reverse`. -/
structure Buf where
  rev : List Tok
  nextTag : Option Str
  nextSub : Option Str
  deriving DecidableEq

namespace Buf

/-- `TokenWriter.__init__` (structured_document/grobid_training_tei.py:132-135). -/
def empty : Buf := ⟨[], none, none⟩

/-- `reset_next_tag` (137-138). -/
def resetNextTag (b : Buf) : Buf := { b with nextTag := none }
/-- `reset_next_sub_tag` (140-141). -/
def resetNextSub (b : Buf) : Buf := { b with nextSub := none }
/-- `set_next_tag` with `begin_tag=True` (143-147). -/
def setNextTag (b : Buf) (tag : Option Str) : Buf :=
  { b with nextTag := addTagPrefix tag (some bPrefix) }
/-- `set_next_sub_tag` with `begin_tag=True` (149-153). -/
def setNextSub (b : Buf) (tag : Option Str) : Buf :=
  { b with nextSub := addTagPrefix tag (some bPrefix) }

/-- `append_tokenized_text_token` (158-176). -/
def appendToken (cc : CharClass) (b : Buf) (s : Str) : Buf :=
  let rev := match b.rev with
    | [] => []
    | t :: ts =>
      { t with whitespace := some (if (strip cc s).isEmpty then s else []) } :: ts
  { rev := toTextToken cc s b.nextTag b.nextSub :: rev
    nextTag := addTagPrefix (stripTagPrefix b.nextTag) (some iPrefix)
    nextSub := addTagPrefix (stripTagPrefix b.nextSub) (some iPrefix) }

/-- `append_tokenized_text` (178-180). -/
def appendTokens (cc : CharClass) (b : Buf) (ss : List Str) : Buf :=
  ss.foldl (appendToken cc) b

/-- `append_text` (182-185); `None` and `''` are ignored. -/
def appendText (cc : CharClass) (b : Buf) : Option Str → Buf
  | none => b
  | some s => if s.isEmpty then b else appendTokens cc b (tokenizeText cc s)

/-- The tokens of the buffer, oldest first. -/
def tokens (b : Buf) : List Tok := b.rev.reverse

/-- `LineBuffer.flush` (198-201): the line and the emptied buffer. -/
def flush (b : Buf) : List Tok × Buf := (b.tokens, { b with rev := [] })

end Buf

end Verif
