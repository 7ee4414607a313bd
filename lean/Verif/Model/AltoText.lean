/-
Model of the stylesheet xslt/alto_to_text.xsl, which extracts the text of ALTO pages.
-/
import Verif.Model.Xml
import Verif.Model.PyStr

namespace Verif

/-- A name in the namespace `alto` (alto_to_text.xsl:5). -/
def altoName (name : Str) : Str := c!"{http://www.loc.gov/standards/alto/ns-v3#}" ++ name

mutual
/-- `.//*`: all elements below an element, in document order. -/
def elemBelow : Elem → List Elem
  | .mk _ _ _ cs _ => elemsBelow cs
/-- The same for a list of elements, including themselves. -/
def elemsBelow : List Elem → List Elem
  | [] => []
  | e :: es => e :: (elemBelow e ++ elemsBelow es)
end

/-- `.//alto:name`. -/
def altoAll (name : Str) (e : Elem) : List Elem := (elemBelow e).filter (fun x => x.tag = altoName name)

/-- The condition `[.//alto:String]`. -/
def hasString (e : Elem) : Bool := !(altoAll c!"String" e).isEmpty

/-- `xsl:apply-templates`: the texts for the elements selected, with their `position()`. -/
def applyTemplates (template : Nat → Elem → Str) (es : List Elem) : Str := (es.zipIdx 1).flatMap (fun p => template p.2 p.1)

/-- The template for `alto:String` (alto_to_text.xsl:10-15). -/
def altoString (position : Nat) (e : Elem) : Str :=
  (if position > 1 then c!" " else []) ++ e.attrib.getD c!"CONTENT" []

/-- The template for `alto:TextLine` (alto_to_text.xsl:17-21). -/
def altoLine (_position : Nat) (e : Elem) : Str := applyTemplates altoString (altoAll c!"String" e) ++ c!"\n"

/-- The template for `alto:TextBlock` (alto_to_text.xsl:23-29). -/
def altoBlock (position : Nat) (e : Elem) : Str :=
  (if position > 1 then c!"\n" else []) ++ applyTemplates altoLine ((altoAll c!"TextLine" e).filter hasString)

/-- The template for `alto:Page` (alto_to_text.xsl:31-37). -/
def altoPage (position : Nat) (e : Elem) : Str :=
  (if position > 1 then c!"\n\n" else []) ++ applyTemplates altoBlock ((altoAll c!"TextBlock" e).filter hasString)

/-- The template for the document (alto_to_text.xsl:39-42). -/
def altoText (root : Elem) : Str :=
  applyTemplates altoPage ((elemsBelow [root]).filter (fun x => x.tag = altoName c!"Page")) ++ c!"\n"

end Verif
