/-
Specification vocabulary for written TEI documents, independent of the writer.
-/
import Verif.Model.TeiWrite

namespace Verif.Spec

/-- Something that occurs at a place of an element tree: a character (`some c`) or a line break
element (`none`).  `addr` identifies the element directly containing it (the child indices from
the root element of the tree), `chain` lists tag and attributes of the elements it is nested in
below the root element. -/
structure Item where
  addr : List Nat
  chain : List (Str × Dict Str)
  ch : Option Char

/-- The characters of a text at a place. -/
def textAt (addr : List Nat) (chain : List (Str × Dict Str)) (s : Str) : List Item :=
  s.map (fun c => ⟨addr, chain, some c⟩)

mutual
/-- Everything inside an element (located at `addr`), in document order. -/
def itemsElem (addr : List Nat) (chain : List (Str × Dict Str)) : Elem → List Item
  | .mk _ _ x cs _ => textAt addr chain (orEmpty x) ++ itemsList addr chain 0 cs
/-- Everything in the children with indices from `n`. -/
def itemsList (addr : List Nat) (chain : List (Str × Dict Str)) (n : Nat) : List Elem → List Item
  | [] => []
  | .mk t a x cs tl :: es =>
    (if t = c!"lb" then [⟨addr, chain, none⟩] else []) ++
      itemsElem (addr ++ [n]) (chain ++ [(t, a)]) (.mk t a x cs tl) ++
      textAt addr chain (orEmpty tl) ++ itemsList addr chain (n + 1) es
end

/-- The content of an element in document order. -/
def items (e : Elem) : List Item := itemsElem [] [] e

/-- The first of two optional texts, unless it is missing or empty. -/
def firstNonEmpty (a b : Option Str) : Option Str :=
  match a with
  | none => b
  | some [] => b
  | some (c :: s) => some (c :: s)

/-- The (full) tag of a token: the explicit tag if there is one, else the preserved tag. -/
def fullTag (t : Tok) : Option Str :=
  firstNonEmpty (t.attrib.get? c!"tag") (t.attrib.get? c!"preserved_tag")

/-- The (full) sub tag of a token. -/
def fullSubTag (t : Tok) : Option Str :=
  firstNonEmpty (t.attrib.get? c!"level2_tag") (t.attrib.get? c!"level2_preserved_tag")

/-- Whether a token is white space. -/
def blank (cc : CharClass) (t : Tok) : Bool := t.text.all cc.isSpace

/-- The path configured for the main tag of a token. -/
def mainPath (mapping : Dict Str) (t : Tok) : List Str :=
  tagRequiredPath mapping (splitTagPrefix (fullTag t)).2

/-- The path configured for the sub tag of a token. -/
def subPath (mapping : Dict Str) (t : Tok) : List Str :=
  tagRequiredPath mapping (splitTagPrefix (fullSubTag t)).2

/-- The sub tag counts if there is one and its path is the main path or lies below it. -/
def hasSub (mapping : Dict Str) (t : Tok) : Prop :=
  fullSubTag t ≠ none ∧ fullSubTag t ≠ some [] ∧ mainPath mapping t <+: subPath mapping t

instance (mapping : Dict Str) (t : Tok) : Decidable (hasSub mapping t) :=
  inferInstanceAs (Decidable (_ ∧ _ ∧ _))

/-- The element chain a token belongs into. -/
def tokenPath (mapping : Dict Str) (t : Tok) : List Str :=
  if hasSub mapping t then subPath mapping t else mainPath mapping t

/-- The main tag has the begin prefix. -/
def isBegin (t : Tok) : Prop := ∃ v, fullTag t = some (c!"b-" ++ v)
/-- The sub tag has the begin prefix. -/
def isSubBegin (t : Tok) : Prop := ∃ v, fullSubTag t = some (c!"b-" ++ v)

/-- What happens to one token (`some t`) or line break (`none`): the place it is written to. -/
structure Piece where
  tok : Option Tok
  addr : List Nat
  chain : List (Str × Dict Str)

def Piece.items (p : Piece) : List Item :=
  match p.tok with
  | none => [⟨p.addr, p.chain, none⟩]
  | some t => textAt p.addr p.chain t.text

/-- A text token (not white space). -/
def Piece.isText (cc : CharClass) (p : Piece) : Bool :=
  match p.tok with
  | none => false
  | some t => !blank cc t

/-- Lines as one sequence of tokens with a break between neighbouring lines. -/
def withBreaks : List (List Tok) → List (Option Tok)
  | [] => []
  | [l] => l.map some
  | l :: m :: ls => l.map some ++ none :: withBreaks (m :: ls)

/-- None of the pieces is a text token. -/
def noText (cc : CharClass) (ps : List Piece) : Prop := ∀ p ∈ ps, p.isText cc = false

/-- `u` is the last text token in front of a position, `mid` what lies between (white space and
line breaks). -/
def follows (cc : CharClass) (before : List Piece) (q : Piece) (u : Tok) (mid : List Piece) : Prop :=
  (∃ pre, before = pre ++ q :: mid) ∧ q.tok = some u ∧ blank cc u = false ∧ noText cc mid

/-- A white space token since the last text token carries the begin prefix with the value of the
tag of `t`. -/
def beginOnSpace (cc : CharClass) (before : List Piece) (t : Tok) : Prop :=
  ∃ pre q mid b, before = pre ++ q :: mid ∧ noText cc mid ∧ q.tok = some b ∧ blank cc b = true ∧
    isBegin b ∧ stripTagPrefix (fullTag b) = stripTagPrefix (fullTag t)

/-- The element at `addr` contains nothing of what was written before. -/
def freshElement (before : List Piece) (addr : List Nat) : Prop :=
  ∀ it ∈ before.flatMap Piece.items, ¬ addr <+: it.addr

end Verif.Spec
