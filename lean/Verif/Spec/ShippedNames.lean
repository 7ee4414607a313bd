/-
Specification: names of elements of the shipped configuration.
-/
import Verif.Spec.ShippedConfig

namespace Verif.Spec

/-- Elements of TEI (P5) used in training documents. -/
def teiElements : List Str :=
  [c!"front", c!"body", c!"back", c!"div", c!"p", c!"head", c!"note", c!"list", c!"item", c!"figure", c!"figDesc", c!"table",
   c!"docTitle", c!"titlePart", c!"byline", c!"docAuthor", c!"listBibl",
   c!"bibl", c!"label", c!"author", c!"editor", c!"date", c!"title", c!"publisher", c!"pubPlace", c!"biblScope", c!"idno",
   c!"ptr", c!"ref", c!"affiliation", c!"orgName", c!"address", c!"addrLine", c!"settlement", c!"postCode", c!"postBox", c!"region", c!"country"]

/-- Elements of training documents which are not in TEI. -/
def otherElements : List Str := [c!"marker", c!"page", c!"other"]

/-- The name space of a step of a path: none, or that of TEI. -/
def teiPrefix (inTei : Bool) : Str := if inTei then c!"{http://www.tei-c.org/ns/1.0}" else []

/-- Kinds of cross references, with the value of `ref-type` in JATS and of `type` in TEI. -/
def crossReferences : List (Str × Str × Str) :=
  [(c!"bib", c!"bibr", c!"biblio"), (c!"figure", c!"fig", c!"figure"), (c!"table", c!"table", c!"table"),
   (c!"formula", c!"disp-formula", c!"formula"), (c!"section", c!"sec", c!"section"), (c!"box", c!"boxed-text", c!"box")]

end Verif.Spec
