/-
Specification for the extraction of target annotations.
-/
import Verif.Model.TargetAnnotations
import Verif.Spec.TargetText

namespace Verif.Spec

/-- `out` is `l` sorted by `le`, elements that are equivalent in the order of `l`. -/
structure StablySorted {α : Type} (le : α → α → Bool) (l out : List α) : Prop where
  perm : out.Perm l
  sorted : out.Pairwise (fun a b => le a b = true)
  stable : ∀ a, out.filter (fun b => le a b && le b a) = l.filter (fun b => le a b && le b a)

/-- A target annotation where it was found. -/
structure Found where
  priority : Int
  /-- position of the element in the document -/
  pos : Nat
  /-- number of a standalone value -/
  index : Option Nat
  item : TargetItem

/-- Target annotations are ordered by descending priority, then by position, then the value of the
element before its standalone values, these by number. -/
def Found.before (a b : Found) : Bool :=
  decide (b.priority < a.priority) || (decide (a.priority = b.priority) &&
    (decide (a.pos < b.pos) || (decide (a.pos = b.pos) &&
      match a.index, b.index with
      | none, _ => true
      | some _, none => false
      | some i, some j => decide (i ≤ j))))

/-- The value made of texts: the text itself if there is one, otherwise all of them, longest
first. -/
inductive ValueOf : List Str → TargetValue → Prop
  | one (s : Str) : ValueOf [s] (.one s)
  | many {l l' : List Str} (hl : l.length ≠ 1) (h : StablySorted (fun a b => decide (b.length ≤ a.length)) l l') :
      ValueOf l (.many l')

/-- What is found for one element: one annotation with all texts, if there are any, and one for
each standalone value, all with the name, priority, options and sub annotations of the field; only
the annotation with the texts can require the next one. -/
structure GroupOf (name : Str) (cfg : FieldCfg) (pos : Nat) (subs : List (Str × TargetValue)) (texts standalone : List Str)
    (l : List Found) : Prop where
  same : ∀ f ∈ l, f.item.target.name = name ∧ f.priority = cfg.priority ∧ f.pos = pos
  options : ∀ f ∈ l, f.item.matchMultiple = cfg.matchMultiple ∧ f.item.bonding = cfg.bonding ∧
    f.item.requireNext = (cfg.requireNext && f.index.isNone) ∧ f.item.target.subs = subs
  split : ∃ a b, l = a ++ b ∧
    (texts = [] ∧ a = [] ∨ texts ≠ [] ∧ ∃ f, a = [f] ∧ f.index = none ∧ ValueOf texts f.item.target.value) ∧
    b.map (fun f => (f.index, f.item.target.value)) = standalone.zipIdx.map (fun p => (some p.2, .one p.1))

/-- What is found for the fields `ks`, in order of discovery: field by field, for each field in
the order in which its expressions select elements of the document. -/
inductive FoundIn (env : TargetEnv) (mapping : Dict Str) (root : XNode) : List Str → List Found → Prop
  | nil : FoundIn env mapping root [] []
  | cons {k : Str} {ks : List Str} {cfg : FieldCfg} {groups : List (List Found)} {rest : List Found}
      (hc : fieldCfg env mapping k = .ok cfg)
      (hl : groups.length = ((cfg.xpaths.getD []).flatMap (env.xpath root)).length)
      (hg : ∀ i (h1 : i < ((cfg.xpaths.getD []).flatMap (env.xpath root)).length) (h2 : i < groups.length),
        ∃ texts standalone,
          elementTexts env cfg ((cfg.xpaths.getD []).flatMap (env.xpath root))[i] = .ok (texts, standalone) ∧
          GroupOf k cfg ((nodeIds root).idxOf ((cfg.xpaths.getD []).flatMap (env.xpath root))[i].id)
            (extractSubAnnotations env ((cfg.xpaths.getD []).flatMap (env.xpath root))[i] cfg.subXpaths mapping k)
            (applyPatterns env cfg texts) standalone groups[i])
      (hr : FoundIn env mapping root ks rest) : FoundIn env mapping root (k :: ks) (groups.flatten ++ rest)

/-- `n` is `root` or inside of it. -/
inductive Within : XNode → XNode → Prop
  | self (n : XNode) : Within n n
  | child {root c n : XNode} (hc : c ∈ root.children) (h : Within c n) : Within root n

/-- `m` is inside of `n`, and not `n` itself. -/
def InsideOf (n m : XNode) : Prop := ∃ c ∈ n.children, Within c m

/-- Document order: `a` starts before `b`. -/
inductive StartsBefore (root : XNode) : XNode → XNode → Prop
  | inside {a c b : XNode} (ha : Within root a) (hc : c ∈ a.children) (hb : Within c b) : StartsBefore root a b
  | siblings {p x y a b : XNode} {l1 l2 l3 : List XNode} (hp : Within root p)
      (hc : p.children = l1 ++ x :: (l2 ++ y :: l3)) (ha : Within x a) (hb : Within y b) : StartsBefore root a b

/-- The text of the minimum or maximum of a range, or of a part of a concatenation: of the elements
selected by an expression, or a fixed text. -/
inductive SourceText (env : TargetEnv) (parent : XNode) (src : ChildSource) : Str → Prop
  | xpath {x : Str} (hx : src.xpath = some x) (hne : x ≠ [])
      (hs : excludeParents env (env.xpath parent x) ≠ []) :
      SourceText env parent src (joinStr [' '] ((excludeParents env (env.xpath parent x)).map (fun n => strippedTextContent env n [])))
  | value (hx : src.xpath = none ∨ src.xpath = some []) : SourceText env parent src (src.value.getD [])

/-- The range `item` goes from `a` to `b`. -/
structure RangeOf (env : TargetEnv) (parent : XNode) (item : RangeItem) (a b : Nat) : Prop where
  numbers : ∃ v w, SourceText env parent item.min v ∧ SourceText env parent item.max w ∧
    (strip env.cc v ≠ [] ∧ ∀ c ∈ strip env.cc v, env.cc.isDigit c = true) ∧
    (strip env.cc w ≠ [] ∧ ∀ c ∈ strip env.cc w, env.cc.isDigit c = true) ∧
    (∃ i, env.parseInt (strip env.cc v) = .ok i ∧ i.toNat = a) ∧ ∃ j, env.parseInt (strip env.cc w) = .ok j ∧ j.toNat = b

mutual
/-- The element with the content of excluded elements inside it removed. -/
def prune (exclude : List Nat) : XNode → XNode
  | .mk i t cs tl => .mk i t (pruneList exclude cs) tl
/-- The same for a list of children. -/
def pruneList (exclude : List Nat) : List XNode → List XNode
  | [] => []
  | .mk i t cs tl :: ns =>
    (if i ∈ exclude then .mk i none [] tl else prune exclude (.mk i t cs tl)) :: pruneList exclude ns
end

/-- `out` is the concatenation of the texts, with a space between some of them: only where the
text before ends and the text behind starts with a word character. -/
inductive JoinedWords (cc : CharClass) : List Str → Str → Prop
  | nil : JoinedWords cc [] []
  | one (t : Str) : JoinedWords cc [t] t
  | plain {t u : Str} {ts : List Str} {r : Str} (h : JoinedWords cc (u :: ts) r) : JoinedWords cc (t :: u :: ts) (t ++ r)
  | space {t u : Str} {ts : List Str} {r : Str} {c d : Char} (hc : cc.isWord c = true) (hd : cc.isWord d = true)
      (ht : t.getLast? = some c ∨ ∃ t', t = t' ++ [c, '\n']) (hu : u.head? = some d)
      (h : JoinedWords cc (u :: ts) r) : JoinedWords cc (t :: u :: ts) (t ++ ' ' :: r)

/-- No two texts run together: wherever a text ending with a word character is followed by one
starting with a word character, there is a space. -/
inductive WordsApart (cc : CharClass) : List Str → Str → Prop
  | nil : WordsApart cc [] []
  | one (t : Str) : WordsApart cc [t] t
  | plain {t u : Str} {ts : List Str} {r : Str}
      (hn : ¬ ∃ c d, t.getLast? = some c ∧ u.head? = some d ∧ cc.isWord c = true ∧ cc.isWord d = true)
      (h : WordsApart cc (u :: ts) r) : WordsApart cc (t :: u :: ts) (t ++ r)
  | space {t u : Str} {ts : List Str} {r : Str} (h : WordsApart cc (u :: ts) r) :
      WordsApart cc (t :: u :: ts) (t ++ ' ' :: r)

/-- A text is recognised as ending with a word: its last character is a word character, perhaps followed by one line feed, and there is no
other line feed in it. -/
def EndsInOneLine (cc : CharClass) (t : Str) : Prop :=
  ∃ a c, cc.isWord c = true ∧ '\n' ∉ a ++ [c] ∧ (t = a ++ [c] ∨ t = a ++ [c, '\n'])

/-- A text starts with a word character. -/
def StartsWithWord (cc : CharClass) (u : Str) : Prop := ∃ d b, cc.isWord d = true ∧ u = d :: b

/-- The texts are joined with a space exactly where the text before is recognised as ending with a word and the text behind starts with one. -/
inductive JoinedExactly (cc : CharClass) : List Str → Str → Prop
  | nil : JoinedExactly cc [] []
  | one (t : Str) : JoinedExactly cc [t] t
  | plain {t u : Str} {ts : List Str} {r : Str} (hn : ¬ (EndsInOneLine cc t ∧ StartsWithWord cc u)) (h : JoinedExactly cc (u :: ts) r) :
      JoinedExactly cc (t :: u :: ts) (t ++ r)
  | space {t u : Str} {ts : List Str} {r : Str} (ht : EndsInOneLine cc t) (hu : StartsWithWord cc u) (h : JoinedExactly cc (u :: ts) r) :
      JoinedExactly cc (t :: u :: ts) (t ++ ' ' :: r)

end Verif.Spec
