/-
Specification vocabulary for C117 and C118: configuration files.
-/
import Verif.Model.ConfigFile

namespace Verif.Spec

/-- The line is a comment. -/
def IsComment (cc : CharClass) (l : Str) : Prop := ∃ rest, strip cc l = '#' :: rest ∨ strip cc l = ';' :: rest

/-- The line is empty. -/
def IsEmptyLine (cc : CharClass) (l : Str) : Prop := strip cc l = []

/-- The number of white space characters at the beginning of the line. -/
def indentOf (cc : CharClass) (l : Str) : Nat := (l.takeWhile cc.isSpace).length

/-- The line is the header of a section. -/
def HeaderLine (cc : CharClass) (l name : Str) : Prop :=
  ∃ rest, strip cc l = '[' :: (name ++ ']' :: rest) ∧ name ≠ [] ∧ ']' ∉ name

/-- The line is an option: its name, in lower case, and the text behind the first `=` or `:`. -/
def OptionLine (cc : CharClass) (lower : Str → Str) (l name text : Str) : Prop :=
  ∃ key d rest, strip cc l = key ++ d :: rest ∧ (d = '=' ∨ d = ':') ∧ '=' ∉ key ∧ ':' ∉ key ∧
    name = lower (rstrip cc key) ∧ name ≠ [] ∧ text = strip cc rest ∧ ¬ IsComment cc l ∧ ∀ h, ¬ HeaderLine cc l h

/-- The lines continue the value of an option with the given indentation; comments do not count, other lines have to
be empty or to have a larger indentation. -/
inductive ValueLines (cc : CharClass) (indent : Nat) : List Str → List Str → Prop
  | nil : ValueLines cc indent [] []
  | comment {l ls vs} (h : IsComment cc l) (hl : ValueLines cc indent ls vs) : ValueLines cc indent (l :: ls) vs
  | empty {l ls vs} (h : IsEmptyLine cc l) (hl : ValueLines cc indent ls vs) : ValueLines cc indent (l :: ls) ([] :: vs)
  | text {l ls vs} (h1 : ¬ IsComment cc l) (h2 : ¬ IsEmptyLine cc l) (h : indent < indentOf cc l)
      (hl : ValueLines cc indent ls vs) : ValueLines cc indent (l :: ls) (strip cc l :: vs)

/-- An option with the lines of its value. -/
structure ConfigEntry where
  name : Str
  lines : List Str

/-- A section of the file. -/
structure ConfigBlock where
  name : Str
  entries : List ConfigEntry

/-- The lines consist of options of the current section and of further sections. -/
inductive BodyLines (cc : CharClass) (lower : Str → Str) : List Str → List ConfigEntry → List ConfigBlock → Prop
  | nil : BodyLines cc lower [] [] []
  | header {l name noise ls es bs} (h : HeaderLine cc l name) (hn : ∀ n ∈ noise, IsComment cc n ∨ IsEmptyLine cc n)
      (hb : BodyLines cc lower ls es bs) : BodyLines cc lower (l :: (noise ++ ls)) [] (⟨name, es⟩ :: bs)
  | entry {l name text ls vs texts es bs} (h : OptionLine cc lower l name text) (hv : ValueLines cc (indentOf cc l) vs texts)
      (hi : ∀ l', ls.head? = some l' → indentOf cc l' ≤ indentOf cc l) (hb : BodyLines cc lower ls es bs) :
      BodyLines cc lower (l :: (vs ++ ls)) (⟨name, text :: texts⟩ :: es) bs

/-- The file consists of these sections. -/
def FileBlocks (cc : CharClass) (lower : Str → Str) (lines : List Str) (blocks : List ConfigBlock) : Prop :=
  ∃ noise ls, lines = noise ++ ls ∧ (∀ n ∈ noise, IsComment cc n ∨ IsEmptyLine cc n) ∧ BodyLines cc lower ls [] blocks

/-- The entries of all sections with the name. -/
def entriesOf (blocks : List ConfigBlock) (s : Str) : List ConfigEntry := (blocks.filter (fun b => b.name = s)).flatMap (·.entries)

/-- No section is given twice, except for `DEFAULT`, and no option twice in a section. -/
def NoRepetition (blocks : List ConfigBlock) : Prop :=
  (∀ s, s ≠ c!"DEFAULT" → (blocks.map (·.name)).count s ≤ 1) ∧ ∀ s, ((entriesOf blocks s).map (·.name)).Nodup

/-- The value of an option: its lines without white space at the end. -/
def entryValue (cc : CharClass) (e : ConfigEntry) : Str := rstrip cc (joinStr c!"\n" e.lines)

/-- The sections and options of the file, in order. -/
def configOf (cc : CharClass) (blocks : List ConfigBlock) : Dict (Dict Str) :=
  (uniqueKeys (blocks.map (·.name))).map (fun s => (s, (entriesOf blocks s).map (fun e => (e.name, entryValue cc e))))

/-- The value of an option of a section; options of the section `DEFAULT` belong to every section that has none of its
own with the name. -/
def optionText (cc : CharClass) (blocks : List ConfigBlock) (s k : Str) : Option Str :=
  (((entriesOf blocks s).find? (fun e => e.name = k)).or ((entriesOf blocks c!"DEFAULT").find? (fun e => e.name = k))).map (entryValue cc)

/-- The text with references to other options replaced by their values, with at most the given number of levels: `%%`
stands for a percent sign, `%(name)s` for the value of the option. -/
inductive Expands (lower : Str → Str) (value : Str → Option Str) : Nat → Str → Str → Prop
  | nil {n} : Expands lower value (n + 1) [] []
  | percent {n s t} (h : Expands lower value (n + 1) s t) : Expands lower value (n + 1) ('%' :: '%' :: s) ('%' :: t)
  | plain {n name s t v} (hne : name ≠ []) (hp : ')' ∉ name) (hv : value (lower name) = some v) (hn : '%' ∉ v)
      (h : Expands lower value (n + 1) s t) : Expands lower value (n + 1) ('%' :: '(' :: (name ++ ')' :: 's' :: s)) (v ++ t)
  | nested {n name s t v w} (hne : name ≠ []) (hp : ')' ∉ name) (hv : value (lower name) = some v) (hn : '%' ∈ v)
      (hw : Expands lower value n v w) (h : Expands lower value (n + 1) s t) :
      Expands lower value (n + 1) ('%' :: '(' :: (name ++ ')' :: 's' :: s)) (w ++ t)
  | char {n c s t} (hc : c ≠ '%') (h : Expands lower value (n + 1) s t) : Expands lower value (n + 1) (c :: s) (c :: t)

/-- The value of an option with its references replaced, by ten levels at most. -/
def OptionValue (cc : CharClass) (lower : Str → Str) (blocks : List ConfigBlock) (s k v : Str) : Prop :=
  ∃ text, optionText cc blocks s k = some text ∧ Expands lower (optionText cc blocks s) 10 text v

/-- The number read for an option of the segmentation configuration. -/
def NumberOption (cc : CharClass) (lower : Str → Str) (parseInt : Str → Option Int) (blocks : List ConfigBlock) (k : Str) (fallback n : Int) : Prop :=
  (((∀ b ∈ blocks, b.name ≠ c!"config") ∨ optionText cc blocks c!"config" (lower k) = none) ∧ n = fallback) ∨
  ((∃ b ∈ blocks, b.name = c!"config") ∧ ∃ v, OptionValue cc lower blocks c!"config" (lower k) v ∧ parseInt v = some n)

end Verif.Spec
