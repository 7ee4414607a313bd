/-
Specification of the repair of a JATS file.
-/
import Verif.Model.JatsDoc

namespace Verif.Spec

/-- All occurrences of `old`, from left to right, are replaced by `new`. -/
inductive Substituted (old new : Str) : Str → Str → Prop
  | nil : Substituted old new [] []
  | found (s t : Str) : Substituted old new s t → Substituted old new (old ++ s) (new ++ t)
  | other (c : Char) (s t : Str) : ¬ old <+: c :: s → Substituted old new s t → Substituted old new (c :: s) (c :: t)

/-- The repair of the data of a file: no white space at the beginning, and no name for the dagger. -/
def Repaired (data data' : Str) : Prop :=
  ∃ ws rest, data = ws ++ rest ∧ (∀ c ∈ ws, c ∈ [' ', '\t', '\n', '\x0b', '\x0c', '\r']) ∧
    (∀ c, rest.head? = some c → c ∉ [' ', '\t', '\n', '\x0b', '\x0c', '\r']) ∧
    Substituted c!"&dagger;" c!"&#x2020;" rest data'

/-- The line with this number, counted from one. -/
def LineAt (data : Str) (lineno : Nat) (line : Str) : Prop :=
  ∃ (pre : List Str) (rest : Str), pre.length + 1 = lineno ∧ (∀ l ∈ pre, '\n' ∉ l) ∧ '\n' ∉ line ∧
    data = pre.flatMap (· ++ ['\n']) ++ (line ++ rest) ∧ (rest = [] ∧ line ≠ [] ∨ ∃ r, rest = '\n' :: r)

/-- The parser reads the data after the spaces at the beginning. -/
def Parses (parse : Str → Except Nat JNode) (data : Str) (r : Except Nat JNode) : Prop :=
  ∃ n rest, data = List.replicate n ' ' ++ rest ∧ rest.head? ≠ some ' ' ∧ parse rest = r

/-- How a file is read: as it is, or, if the parser reports an error on one of its lines, repaired. -/
inductive ReadAs (parse : Str → Except Nat JNode) (data : Str) : JNode → Bool → Prop
  | plain (root : JNode) : Parses parse data (.ok root) → ReadAs parse data root false
  | repaired (root : JNode) (lineno : Nat) (line data' : Str) : Parses parse data (.error lineno) →
      LineAt data lineno line → Repaired data data' → Parses parse data' (.ok root) → ReadAs parse data root true

/-- `n` is an element of `root` whose ancestors have these tags, nearest first. -/
inductive Under (root : JNode) : List Str → JNode → Prop
  | root : Under root [] root
  | child (ancestors : List Str) (p c : JNode) : Under root ancestors p → c ∈ p.children → Under root (p.tag :: ancestors) c

/-- References: `ref` in `ref-list` in `back`, where `back` is inside of some other element. -/
def RefPath (ancestors : List Str) (tag : Str) : Prop :=
  tag = c!"ref" ∧ ancestors.take 2 = [c!"ref-list", c!"back"] ∧ 3 ≤ ancestors.length

instance (ancestors : List Str) (tag : Str) : Decidable (RefPath ancestors tag) := by unfold RefPath; infer_instance

/-- `r` is a reference of the document. -/
def IsRef (root r : JNode) : Prop := ∃ ancestors, Under root ancestors r ∧ RefPath ancestors r.tag

/-- No reference is inside of another one. -/
def RefsApart (root : JNode) : Prop :=
  ∀ anc r, Under root anc r → RefPath anc r.tag → ∀ anc' r', Under r anc' r' → anc' ≠ [] → ¬ RefPath (anc' ++ anc) r'.tag

mutual
/-- The document with its references emptied: their attributes and what follows them is kept. -/
def emptyRefsAt (ancestors : List Str) : JNode → JNode
  | .mk i g a t cs tl =>
    if RefPath ancestors g then .mk i g a none [] tl else .mk i g a t (emptyRefsAts (g :: ancestors) cs) tl
/-- The same for a list of elements. -/
def emptyRefsAts (ancestors : List Str) : List JNode → List JNode
  | [] => []
  | n :: ns => emptyRefsAt ancestors n :: emptyRefsAts ancestors ns
end

/-- The document with its references emptied. -/
def emptyRefs (root : JNode) : JNode := emptyRefsAt [] root

/-- An element giving a value. -/
def MetaPair (n : JNode) (key value : Str) : Prop :=
  n.tag = c!"custom-meta" ∧
    n.children.map (fun c => (c.tag, c.text, c.children)) = [(c!"meta-name", some key, []), (c!"meta-value", some value, [])]

/-- Elements giving these values, in order. -/
def MetaPairs : List JNode → List (Str × Str) → Prop
  | [], [] => True
  | n :: ns, p :: ps => MetaPair n p.1 p.2 ∧ MetaPairs ns ps
  | _, _ => False

/-- The references written differently after the repair. -/
def changedOf (ser : JNode → Str) : List JNode → List JNode → List JNode
  | r :: rs, r' :: rs' => if ser r = ser r' then changedOf ser rs rs' else r :: changedOf ser rs rs'
  | _, _ => []

/-- `out` is `root` with `added` behind everything in its first group of meta data, or in a new group before all
other elements. -/
def MetaAdded (root out : JNode) (added : List JNode) : Prop :=
  out.id = root.id ∧ out.tag = root.tag ∧ out.attrs = root.attrs ∧ out.text = root.text ∧ out.tail = root.tail ∧
  ((∃ pre g post, root.children = pre ++ g :: post ∧ g.tag = c!"custom-meta-group" ∧
      (∀ n ∈ pre, n.tag ≠ c!"custom-meta-group") ∧ out.children = pre ++ g.setChildren (g.children ++ added) :: post) ∨
    ((∀ n ∈ root.children, n.tag ≠ c!"custom-meta-group") ∧
      ∃ i, out.children = .mk i c!"custom-meta-group" [] (some c!"\n") added (some c!"\n") :: root.children))

end Verif.Spec
