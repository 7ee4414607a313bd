/-
Specification: what a text of XML says, independent of how it was written.
-/
import Verif.Model.XmlFix

namespace Verif.Spec

/-- Content of an XML element. -/
inductive XmlNode where
  | text (s : Str)
  | elem (tag : Str) (attrs : List (Str × Str)) (children : List XmlNode)

/-- The character data `raw` of an XML text denotes the string `s`: `&` and `<` only occur as
part of a reference or not at all. -/
inductive Decodes : Str → Str → Prop
  | nil : Decodes [] []
  | char {c r s} (h1 : c ≠ '&') (h2 : c ≠ '<') (h : Decodes r s) : Decodes (c :: r) (c :: s)
  | amp {r s} (h : Decodes r s) : Decodes (c!"&amp;" ++ r) ('&' :: s)
  | lt {r s} (h : Decodes r s) : Decodes (c!"&lt;" ++ r) ('<' :: s)
  | gt {r s} (h : Decodes r s) : Decodes (c!"&gt;" ++ r) ('>' :: s)
  | quot {r s} (h : Decodes r s) : Decodes (c!"&quot;" ++ r) ('"' :: s)
  | tab {r s} (h : Decodes r s) : Decodes (c!"&#9;" ++ r) ('\t' :: s)
  | lf {r s} (h : Decodes r s) : Decodes (c!"&#10;" ++ r) ('\n' :: s)
  | cr {r s} (h : Decodes r s) : Decodes (c!"&#13;" ++ r) ('\r' :: s)

/-- A quoted attribute value: the quote does not occur inside, nor do characters that are
replaced by a space when the value is read. -/
inductive QuotedAs : Str → Str → Prop
  | mk {q raw v} (hq : q = '"' ∨ q = '\'') (hn : ∀ c ∈ raw, c ≠ q ∧ c ≠ '\n' ∧ c ≠ '\r' ∧ c ≠ '\t')
      (h : Decodes raw v) : QuotedAs (q :: raw ++ [q]) v

/-- The attributes of a start tag. -/
inductive XmlAttrs : Str → List (Str × Str) → Prop
  | nil : XmlAttrs [] []
  | cons {k q v r as} (hq : QuotedAs q v) (h : XmlAttrs r as) :
      XmlAttrs (' ' :: k ++ '=' :: q ++ r) ((k, v) :: as)

/-- The text `raw` is well formed content consisting of the nodes `ns`: every start tag has a
matching end tag and the elements are properly nested. -/
inductive XmlContent : Str → List XmlNode → Prop
  | nil : XmlContent [] []
  | text {raw s r ns} (h : Decodes raw s) (hr : XmlContent r ns) :
      XmlContent (raw ++ r) (.text s :: ns)
  | elem {tag ra as rc cs r ns} (ha : XmlAttrs ra as) (hc : XmlContent rc cs) (hr : XmlContent r ns) :
      XmlContent (('<' :: tag ++ ra ++ ['>']) ++ rc ++ ('<' :: '/' :: tag ++ ['>']) ++ r) (.elem tag as cs :: ns)

/-- What is met when reading a document from start to end, apart from end tags. -/
inductive XmlMark where
  | open (tag : Str) (attrs : List (Str × Str))
  | char (c : Char)

mutual
/-- Start tags and characters of a node in document order. -/
def nodeMarks : XmlNode → List XmlMark
  | .text s => s.map .char
  | .elem t as cs => .open t as :: contentMarks cs
/-- Start tags and characters of a list of nodes in document order. -/
def contentMarks : List XmlNode → List XmlMark
  | [] => []
  | n :: ns => nodeMarks n ++ contentMarks ns
end

/-- The attributes of a start tag, those without value left out. -/
def valuedAttrs (as : List (Str × Option Str)) : List (Str × Str) :=
  as.filterMap (fun p => p.2.map (fun v => (p.1, v)))

/-- Start tags and characters of a sequence of events. -/
def eventMarks : List HtmlEvent → List XmlMark
  | [] => []
  | .start t as :: es => .open t (valuedAttrs as) :: eventMarks es
  | .startEnd t as :: es => .open t (valuedAttrs as) :: eventMarks es
  | .stop _ :: es => eventMarks es
  | .data s :: es => s.map .char ++ eventMarks es

/-- The attributes of an event. -/
def eventAttrs : HtmlEvent → List (Str × Option Str)
  | .start _ as => as
  | .startEnd _ as => as
  | .stop _ => []
  | .data _ => []

mutual
/-- The events reported for a node of a well formed document. -/
def nodeEvents : XmlNode → List HtmlEvent
  | .text s => [.data s]
  | .elem t as cs =>
    .start t (as.map (fun p => (p.1, some p.2))) :: contentEvents cs ++ [.stop t]
/-- The events reported for a list of nodes. -/
def contentEvents : List XmlNode → List HtmlEvent
  | [] => []
  | n :: ns => nodeEvents n ++ contentEvents ns
end

/-- The tags of all start tags. -/
def startedTags : List HtmlEvent → List Str
  | [] => []
  | .start t _ :: es => t :: startedTags es
  | .startEnd t _ :: es => t :: startedTags es
  | .stop _ :: es => startedTags es
  | .data _ :: es => startedTags es

/-- An element that has been started, with complete content so far. -/
structure OpenedElem where
  tag : Str
  attrs : List (Str × Option Str)
  content : List XmlNode

/-- The events of an element that has been started: no end tag. -/
def openedEvents (u : OpenedElem) : List HtmlEvent := .start u.tag u.attrs :: contentEvents u.content

end Verif.Spec
