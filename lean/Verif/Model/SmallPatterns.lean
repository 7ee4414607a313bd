/-
The other regular expressions of the code which the model has unfolded into functions: those for page numbers and page headers
(annotation/segmentation_annotator.py:249, 311, 314), for texts that end or start with a word (annotation/target_annotation.py:52, 56)
and for tag expressions (structured_document/grobid_training_tei.py:250).
-/
import Verif.Model.Regex
import Verif.Model.Segmentation

namespace Verif

/-- `^\d+$` (annotation/segmentation_annotator.py:249). -/
def pageNumberPattern (env : SegEnv) : Pattern := ⟨.bol, .plus env.isDigit, .eol⟩

/-- `^(\d|\s|\.)+$` (annotation/segmentation_annotator.py:311). -/
def digitsPattern (env : SegEnv) : Pattern :=
  ⟨.bol, .rep (.alt (.alt (.chr env.isDigit) (.chr env.isSpace)) (.lit exactly c!".")) 1 none true, .eol⟩

/-- `\s` (annotation/segmentation_annotator.py:314); `re.split` gives at least two parts exactly if it is found. -/
def spacePattern (env : SegEnv) : Pattern := ⟨.empty, .chr env.isSpace, .empty⟩

/-- `.*\w$` (annotation/target_annotation.py:52). -/
def endsWithWordPattern (cc : CharClass) : Pattern := ⟨.empty, .star (fun c => c ≠ '\n'), .seq (.chr cc.isWord) .eol⟩

/-- `^\w.*` (annotation/target_annotation.py:56). -/
def startsWithWordPattern (cc : CharClass) : Pattern := ⟨.bol, .chr cc.isWord, .star (fun c => c ≠ '\n')⟩

/-- `[^\[]+` -/
def tagNameRe : Re := .plus (fun c => c ≠ '[')
/-- `\[@?` -/
def tagOpenRe : Re := .seq (.lit exactly c!"[") (.opt (.lit exactly c!"@"))
/-- `[^=]+` -/
def tagKeyRe : Re := .plus (fun c => c ≠ '=')
/-- `="` -/
def tagQuoteRe : Re := .lit exactly c!"=\""
/-- `.+` -/
def tagValueRe : Re := .plus (fun c => c ≠ '\n')
/-- `"\]` -/
def tagCloseRe : Re := .lit exactly c!"\"]"

/-- `^([^\[]+)(\[@?([^=]+)="(.+)"\])?$` (structured_document/grobid_training_tei.py:250) with its first group. -/
def tagNamePattern : Pattern :=
  ⟨.bol, tagNameRe, .seq (.opt (.seq tagOpenRe (.seq tagKeyRe (.seq tagQuoteRe (.seq tagValueRe tagCloseRe))))) .eol⟩

/-- The same with the third group, if the second takes part in the match. -/
def tagKeyPattern : Pattern :=
  ⟨.seq .bol (.seq tagNameRe tagOpenRe), tagKeyRe, .seq tagQuoteRe (.seq tagValueRe (.seq tagCloseRe .eol))⟩

/-- The same with the fourth group, if the second takes part in the match. -/
def tagValuePattern : Pattern :=
  ⟨.seq .bol (.seq tagNameRe (.seq tagOpenRe (.seq tagKeyRe tagQuoteRe))), tagValueRe, .seq tagCloseRe .eol⟩

/-- `re.match(...).group(...)`. -/
def Pattern.matchGroup (cc : CharClass) (p : Pattern) (s : Str) : Option Str :=
  (p.matchStart cc s).map (fun q => (s.drop q.1).take (q.2 - q.1))

end Verif
