/-
Helper lemmas for the repair of a JATS file.
-/
import Verif.Spec.JatsDoc
import Verif.Lemmas.JatsFix
import Verif.Lemmas.PyStr

namespace Verif

open Spec

theorem append_of_mem_first {c : Char} {s : Str} (h : c ∈ s) : ∃ a b, s = a ++ c :: b ∧ c ∉ a :=
  (first_occurrence c s).resolve_left (fun hn => hn h)

theorem isRefAt_iff (anc : List Str) (tag : Str) : isRefAt anc tag = true ↔ RefPath anc tag := by
  unfold RefPath isRefAt
  match anc with
  | [] => simp
  | [_] => simp
  | [_, _] => simp
  | l :: b :: x :: anc =>
    simp only [Bool.and_eq_true, decide_eq_true_eq, List.take, List.cons.injEq, List.length_cons, and_true]
    constructor
    · rintro ⟨⟨h1, h2⟩, h3⟩; exact ⟨h1, ⟨h2, h3⟩, by omega⟩
    · rintro ⟨h1, ⟨h2, h3⟩, _⟩; exact ⟨⟨h1, h2⟩, h3⟩

theorem startsWith_prefix (p s : Str) : startsWith p s = true ↔ p <+: s := by
  unfold startsWith
  first
    | exact List.isPrefixOf_iff_prefix
    | simp

/-- Replacing. -/
theorem substituted_replaceAll (old new : Str) (h : old ≠ []) (s : Str) : Substituted old new s (replaceAll old new s) := by
  generalize hn : s.length = n
  induction n using Nat.strongRecOn generalizing s with
  | _ n ih =>
    cases s with
    | nil => rw [replaceAll]; exact .nil
    | cons c s =>
      rw [replaceAll]
      by_cases hp : startsWith old (c :: s) = true
      · rw [if_pos ⟨h, hp⟩]
        obtain ⟨r, hr⟩ := (startsWith_prefix _ _).mp hp
        have hd : s.drop (old.length - 1) = r := by
          cases old with
          | nil => exact absurd rfl h
          | cons x old =>
            simp only [List.cons_append, List.cons.injEq] at hr
            rw [← hr.2]; simp
        rw [hd, ← hr]
        refine .found _ _ (ih r.length ?_ r rfl)
        have := congrArg List.length hr
        simp only [List.length_append, List.length_cons] at this hn
        have : 0 < old.length := List.length_pos_iff.mpr h
        omega
      · rw [if_neg (fun hc => hp hc.2)]
        refine .other _ _ _ (fun hc => hp ((startsWith_prefix _ _).mpr hc)) (ih s.length ?_ s rfl)
        simp only [List.length_cons] at hn; omega

theorem substituted_unique {old new s t t' : Str} (ho : old ≠ []) (h : Substituted old new s t) (h' : Substituted old new s t') :
    t = t' := by
  induction h generalizing t' with
  | nil =>
    generalize hs : ([] : Str) = s at h'
    cases h' with
    | nil => rfl
    | found s t => exact absurd (List.append_eq_nil_iff.mp hs.symm).1 ho
    | other => cases hs
  | found s t _ ih =>
    generalize hs : old ++ s = u at h'
    cases h' with
    | nil => exact absurd (List.append_eq_nil_iff.mp hs).1 ho
    | found s' t' h'' => rw [List.append_cancel_left hs] at ih; rw [ih h'']
    | other c s' t' hn _ => exact absurd ⟨s, hs⟩ hn
  | other c s t hn _ ih =>
    generalize hs : c :: s = u at h'
    cases h' with
    | nil => cases hs
    | found s' t' _ => exact absurd ⟨s', hs.symm⟩ hn
    | other c' s' t' _ h'' => cases hs; rw [ih h'']

theorem mem_asciiSpace (c : Char) : isAsciiSpace c = true ↔ c ∈ [' ', '\t', '\n', '\x0b', '\x0c', '\r'] := by
  unfold isAsciiSpace
  rw [decide_eq_true_iff]
  constructor
  · intro h
    have hc : c = Char.ofNat c.toNat := (Char.ofNat_toNat c).symm
    simp only [List.mem_cons, List.not_mem_nil, or_false] at h
    rw [hc]
    rcases h with h | h | h | h | h | h <;> rw [h] <;> decide
  · intro h
    simp only [List.mem_cons, List.not_mem_nil, or_false] at h
    rcases h with rfl | rfl | rfl | rfl | rfl | rfl <;> decide

theorem head?_dropWhile (p : Char → Bool) (s : Str) (c : Char) (h : (s.dropWhile p).head? = some c) : p c = false := by
  induction s with
  | nil => simp at h
  | cons x s ih =>
    rw [List.dropWhile_cons] at h
    split at h
    · exact ih h
    · next hx =>
      simp only [List.head?_cons, Option.some.injEq] at h
      rw [← h]; simpa using hx

theorem repaired_repairedXml (data : Str) : Repaired data (repairedXml data) := by
  refine ⟨data.takeWhile isAsciiSpace, data.dropWhile isAsciiSpace, (List.takeWhile_append_dropWhile).symm, ?_, ?_, ?_⟩
  · intro c hc
    exact (mem_asciiSpace c).mp (List.all_eq_true.mp (List.all_takeWhile) c hc)
  · intro c hc hm
    have := head?_dropWhile _ _ _ hc
    rw [(mem_asciiSpace c).mpr hm] at this
    cases this
  · exact substituted_replaceAll _ _ (by decide) _

theorem parses_skipSpaces (parse : Str → Except Nat JNode) (data : Str) : Parses parse data (parse (skipSpaces data)) := by
  refine ⟨(data.takeWhile (fun c => c = ' ')).length, skipSpaces data, ?_, ?_, rfl⟩
  · have : List.replicate (data.takeWhile (fun c => decide (c = ' '))).length ' ' = data.takeWhile (fun c => c = ' ') := by
      symm
      rw [List.eq_replicate_iff]
      refine ⟨rfl, fun c hc => ?_⟩
      simpa using List.all_eq_true.mp (List.all_takeWhile) c hc
    rw [this]
    exact (List.takeWhile_append_dropWhile).symm
  · intro h
    have := head?_dropWhile _ _ _ h
    simp at this

theorem parses_iff (parse : Str → Except Nat JNode) (data : Str) (r : Except Nat JNode) :
    Parses parse data r ↔ parse (skipSpaces data) = r := by
  constructor
  · rintro ⟨n, rest, rfl, h2, h3⟩
    have : skipSpaces (List.replicate n ' ' ++ rest) = rest := by
      unfold skipSpaces
      rw [List.dropWhile_append_of_pos (by intro c hc; rw [List.eq_of_mem_replicate hc]; simp)]
      cases rest with
      | nil => rfl
      | cons c rest =>
        rw [List.dropWhile_cons, if_neg]
        simpa using h2
    rw [this, h3]
  · rintro rfl; exact parses_skipSpaces parse data

theorem fileLines_append (f s : Str) (h : '\n' ∉ f) : fileLines (f ++ '\n' :: s) = f :: fileLines s := by
  unfold fileLines
  rw [splitOn_append _ _ _ h]
  obtain ⟨x, l, hx⟩ := List.exists_cons_of_ne_nil (splitOn_ne_nil '\n' s)
  simp only [hx, List.getLast?_cons_cons, List.dropLast_cons_cons]
  split <;> rfl

theorem fileLines_of_not_mem (f : Str) (h : '\n' ∉ f) (hf : f ≠ []) : fileLines f = [f] := by
  unfold fileLines
  rw [splitOn_of_not_mem _ _ h]
  simp [hf]

theorem fileLines_nil : fileLines [] = [] := rfl

theorem lineAt_of_fileLines (data : Str) (k : Nat) (line : Str) (h : (fileLines data)[k]? = some line) :
    LineAt data (k + 1) line := by
  induction k generalizing data with
  | zero =>
    by_cases hm : '\n' ∈ data
    · obtain ⟨a, b, rfl, ha⟩ := append_of_mem_first hm
      rw [fileLines_append _ _ ha] at h
      cases h
      exact ⟨[], '\n' :: b, rfl, by simp, ha, by simp, .inr ⟨b, rfl⟩⟩
    · by_cases hd : data = []
      · subst hd; cases h
      · rw [fileLines_of_not_mem _ hm hd] at h
        cases h
        exact ⟨[], [], rfl, by simp, hm, by simp, .inl ⟨rfl, hd⟩⟩
  | succ k ih =>
    by_cases hm : '\n' ∈ data
    · obtain ⟨a, b, rfl, ha⟩ := append_of_mem_first hm
      rw [fileLines_append _ _ ha, List.getElem?_cons_succ] at h
      obtain ⟨pre, rest, h1, h2, h3, h4, h5⟩ := ih b h
      refine ⟨a :: pre, rest, by simp [h1], ?_, h3, by rw [h4]; simp, h5⟩
      intro l hl
      rcases List.mem_cons.mp hl with rfl | hl
      · exact ha
      · exact h2 l hl
    · by_cases hd : data = []
      · subst hd; cases h
      · rw [fileLines_of_not_mem _ hm hd] at h
        cases h

theorem fileLines_of_lineAt (data : Str) (n : Nat) (line : Str) (h : LineAt data n line) :
    n ≠ 0 ∧ (fileLines data)[n - 1]? = some line := by
  obtain ⟨pre, rest, rfl, h2, h3, rfl, h5⟩ := h
  refine ⟨by omega, ?_⟩
  rw [Nat.add_sub_cancel]
  induction pre with
  | nil =>
    rcases h5 with ⟨rfl, h5⟩ | ⟨r, rfl⟩
    · simp only [List.flatMap_nil, List.nil_append, List.append_nil]
      rw [fileLines_of_not_mem _ h3 h5]; rfl
    · simp only [List.flatMap_nil, List.nil_append]
      rw [fileLines_append _ _ h3]; rfl
  | cons a pre ih =>
    simp only [List.flatMap_cons, List.append_assoc, List.cons_append, List.nil_append, List.length_cons]
    rw [fileLines_append _ _ (h2 a (List.mem_cons_self ..)), List.getElem?_cons_succ]
    have := ih (fun l hl => h2 l (List.mem_cons_of_mem _ hl))
    simpa [List.append_assoc] using this

/-! ### References -/

theorem editAt_root (i : Nat) (f : JOp) (n n' : JNode) (b : Bool) (h : editAt i f n = .ok (n', b)) :
    n'.id = n.id ∧ n'.tag = n.tag ∧ n'.attrs = n.attrs ∧ n'.tail = n.tail := by
  obtain ⟨j, g, a, t, cs, tl⟩ := n
  unfold editAt at h
  split at h
  · split at h
    · cases h
    · cases h; exact ⟨rfl, rfl, rfl, rfl⟩
  · split at h
    · cases h
    · cases h; exact ⟨rfl, rfl, rfl, rfl⟩

theorem runIds_root (env : JatsEnv) (k : JatsFix) (is : List Nat) (n n' : JNode) (h : runIds env k is n = .ok n') :
    n'.id = n.id ∧ n'.tag = n.tag ∧ n'.attrs = n.attrs ∧ n'.tail = n.tail := by
  induction is generalizing n with
  | nil => cases h; exact ⟨rfl, rfl, rfl, rfl⟩
  | cons i is ih =>
    unfold runIds at h
    cases he : editAt i (fixOp env k (freshId n)) n with
    | error x => simp [he] at h
    | ok p =>
      obtain ⟨n1, stop⟩ := p
      simp only [he] at h
      obtain ⟨a1, a2, a3, a4⟩ := editAt_root _ _ _ _ _ he
      cases stop with
      | true => cases h; exact ⟨a1, a2, a3, a4⟩
      | false =>
        obtain ⟨b1, b2, b3, b4⟩ := ih n1 h
        exact ⟨b1.trans a1, b2.trans a2, b3.trans a3, b4.trans a4⟩

theorem runFixes_root (env : JatsEnv) (ks : List JatsFix) (n n' : JNode) (h : runFixes env ks n = .ok n') :
    n'.id = n.id ∧ n'.tag = n.tag ∧ n'.attrs = n.attrs ∧ n'.tail = n.tail := by
  induction ks generalizing n with
  | nil => cases h; exact ⟨rfl, rfl, rfl, rfl⟩
  | cons k ks ih =>
    unfold runFixes at h
    cases he : runFix env k n with
    | error x => simp [he] at h
    | ok n1 =>
      simp only [he] at h
      obtain ⟨a1, a2, a3, a4⟩ := runIds_root _ _ _ _ _ he
      obtain ⟨b1, b2, b3, b4⟩ := ih n1 h
      exact ⟨b1.trans a1, b2.trans a2, b3.trans a3, b4.trans a4⟩

/-- What is kept of the element itself. -/
def KeepsRoot (f : JNode → Except Err JNode) : Prop :=
  ∀ n n', f n = .ok n' → n'.id = n.id ∧ n'.tag = n.tag ∧ n'.attrs = n.attrs ∧ n'.tail = n.tail

/-- Results of all elements of a list, in order. -/
def AllOk (f : JNode → Except Err JNode) (l l' : List JNode) : Prop := l.map f = l'.map .ok

mutual
theorem mapRefsAt_ok (f : JNode → Except Err JNode) (hf : KeepsRoot f) (anc : List Str) (n n' : JNode)
    (h : mapRefsAt f anc n = .ok n') :
    n'.tag = n.tag ∧ emptyRefsAt anc n' = emptyRefsAt anc n ∧ AllOk f (refsAt anc n) (refsAt anc n') := by
  obtain ⟨i, g, a, t, cs, tl⟩ := n
  unfold mapRefsAt at h
  by_cases hr : isRefAt anc g = true
  · rw [if_pos hr] at h
    obtain ⟨h1, h2, h3, h4⟩ := hf _ _ h
    obtain ⟨i', g', a', t', cs', tl'⟩ := n'
    simp only [JNode.id, JNode.tag, JNode.attrs, JNode.tail] at h1 h2 h3 h4
    subst h1 h2 h3 h4
    refine ⟨rfl, ?_, ?_⟩
    · simp only [emptyRefsAt, (isRefAt_iff _ _).mp hr, if_true]
    · simp only [refsAt, hr, if_true, AllOk, List.map_cons, List.map_nil, h]
  · rw [if_neg hr] at h
    split at h
    · cases h
    · next cs' hcs =>
      cases h
      obtain ⟨h1, h2⟩ := mapRefsAts_ok f hf _ _ _ hcs
      refine ⟨rfl, ?_, ?_⟩
      · simp only [emptyRefsAt, h1]
      · simp only [refsAt, hr]
        exact h2
theorem mapRefsAts_ok (f : JNode → Except Err JNode) (hf : KeepsRoot f) (anc : List Str) (ns ns' : List JNode)
    (h : mapRefsAts f anc ns = .ok ns') :
    emptyRefsAts anc ns' = emptyRefsAts anc ns ∧ AllOk f (refsAts anc ns) (refsAts anc ns') := by
  cases ns with
  | nil => cases h; exact ⟨rfl, rfl⟩
  | cons n ns =>
    unfold mapRefsAts at h
    split at h
    · cases h
    · next n1 hn =>
      split at h
      · cases h
      · next ns1 hns =>
        cases h
        obtain ⟨_, h2, h3⟩ := mapRefsAt_ok f hf _ _ _ hn
        obtain ⟨h4, h5⟩ := mapRefsAts_ok f hf _ _ _ hns
        refine ⟨?_, ?_⟩
        · simp only [emptyRefsAts, h2, h4]
        · unfold AllOk at *
          simp only [refsAts, List.map_append, h3, h5]
end

mutual
theorem mapRefsAt_error (f : JNode → Except Err JNode) (anc : List Str) (n : JNode) (e : Err)
    (h : mapRefsAt f anc n = .error e) : ∃ r ∈ refsAt anc n, f r = .error e := by
  obtain ⟨i, g, a, t, cs, tl⟩ := n
  unfold mapRefsAt at h
  unfold refsAt
  by_cases hr : isRefAt anc g = true
  · rw [if_pos hr] at h
    rw [if_pos hr]
    exact ⟨_, List.mem_singleton.mpr rfl, h⟩
  · rw [if_neg hr] at h
    rw [if_neg hr]
    split at h
    · next e' he => cases h; exact mapRefsAts_error f _ _ _ he
    · cases h
theorem mapRefsAts_error (f : JNode → Except Err JNode) (anc : List Str) (ns : List JNode) (e : Err)
    (h : mapRefsAts f anc ns = .error e) : ∃ r ∈ refsAts anc ns, f r = .error e := by
  cases ns with
  | nil => cases h
  | cons n ns =>
    unfold mapRefsAts at h
    unfold refsAts
    split at h
    · next e' he =>
      cases h
      obtain ⟨r, h1, h2⟩ := mapRefsAt_error f _ _ _ he
      exact ⟨r, List.mem_append_left _ h1, h2⟩
    · split at h
      · next e' he =>
        cases h
        obtain ⟨r, h1, h2⟩ := mapRefsAts_error f _ _ _ he
        exact ⟨r, List.mem_append_right _ h1, h2⟩
      · cases h
end

theorem keepsRoot_fixReference (env : JatsEnv) : KeepsRoot (fixReference env) := fun n n' h => runFixes_root env _ n n' h

theorem AllOk.length {f : JNode → Except Err JNode} {l l' : List JNode} (h : AllOk f l l') : l'.length = l.length := by
  have := congrArg List.length h
  simpa using this.symm

/-! ### Which elements are references -/

theorem under_trans {root p c : JNode} {anc anc' : List Str} (h : Under root anc p) (h' : Under p anc' c) :
    Under root (anc' ++ anc) c := by
  induction h' with
  | root => exact h
  | child anc' q c _ hc ih => exact .child _ _ _ ih hc

theorem under_cases {n r : JNode} {t : List Str} (h : Under n t r) :
    (t = [] ∧ r = n) ∨ ∃ c ∈ n.children, ∃ t', t = t' ++ [n.tag] ∧ Under c t' r := by
  induction h with
  | root => exact .inl ⟨rfl, rfl⟩
  | child t p c _ hc ih =>
    rcases ih with ⟨rfl, rfl⟩ | ⟨c', h1, t', rfl, h3⟩
    · exact .inr ⟨c, hc, [], rfl, .root⟩
    · exact .inr ⟨c', h1, p.tag :: t', rfl, .child _ _ _ h3 hc⟩

theorem under_child {n c r : JNode} {t : List Str} (hc : c ∈ n.children) (h : Under c t r) : Under n (t ++ [n.tag]) r :=
  under_trans (.child _ _ _ .root hc) h

mutual
theorem under_of_mem_refsAt (anc : List Str) (n r : JNode) (h : r ∈ refsAt anc n) :
    ∃ t, Under n t r ∧ RefPath (t ++ anc) r.tag := by
  obtain ⟨i, g, a, t, cs, tl⟩ := n
  unfold refsAt at h
  split at h
  · next hr =>
    cases List.mem_singleton.mp h
    exact ⟨[], .root, (isRefAt_iff _ _).mp hr⟩
  · obtain ⟨c, hc, t', h1, h2⟩ := under_of_mem_refsAts _ _ _ h
    refine ⟨t' ++ [g], under_child (n := .mk i g a t cs tl) hc h1, ?_⟩
    simpa using h2
theorem under_of_mem_refsAts (anc : List Str) (ns : List JNode) (r : JNode) (h : r ∈ refsAts anc ns) :
    ∃ c ∈ ns, ∃ t, Under c t r ∧ RefPath (t ++ anc) r.tag := by
  cases ns with
  | nil => cases h
  | cons n ns =>
    unfold refsAts at h
    rcases List.mem_append.mp h with h | h
    · obtain ⟨t, h1⟩ := under_of_mem_refsAt _ _ _ h
      exact ⟨n, List.mem_cons_self .., t, h1⟩
    · obtain ⟨c, hc, h1⟩ := under_of_mem_refsAts _ _ _ h
      exact ⟨c, List.mem_cons_of_mem _ hc, h1⟩
end

mutual
theorem mem_refsAt_of_under (anc : List Str) (n r : JNode) (t : List Str) (h : Under n t r) (hp : RefPath (t ++ anc) r.tag)
    (ha : ∀ t1 t2 p, t = t1 ++ t2 → Under n t2 p → Under p t1 r → t1 ≠ [] → ¬ RefPath (t2 ++ anc) p.tag) :
    r ∈ refsAt anc n := by
  obtain ⟨i, g, a, tx, cs, tl⟩ := n
  unfold refsAt
  rcases under_cases h with ⟨ht, hr⟩ | ⟨c, hc, t', ht, h3⟩
  · subst ht
    rw [hr] at hp
    rw [if_pos ((isRefAt_iff anc g).mpr hp), hr]
    exact List.mem_singleton.mpr rfl
  · subst ht
    have hn : ¬ RefPath anc g := ha (t' ++ [g]) [] (.mk i g a tx cs tl) (by simp [JNode.tag]) .root h (by simp)
    rw [if_neg (fun hr => hn ((isRefAt_iff anc g).mp hr))]
    refine mem_refsAts_of_under (g :: anc) cs c r t' hc h3 (by simpa [JNode.tag] using hp) ?_
    intro t1 t2 p ht h4 h5 h6
    have := ha t1 (t2 ++ [g]) p (by rw [ht]; simp [JNode.tag]) (under_child (n := .mk i g a tx cs tl) hc h4) h5 h6
    simpa using this
theorem mem_refsAts_of_under (anc : List Str) (ns : List JNode) (c r : JNode) (t : List Str) (hc : c ∈ ns) (h : Under c t r)
    (hp : RefPath (t ++ anc) r.tag)
    (ha : ∀ t1 t2 p, t = t1 ++ t2 → Under c t2 p → Under p t1 r → t1 ≠ [] → ¬ RefPath (t2 ++ anc) p.tag) :
    r ∈ refsAts anc ns := by
  cases ns with
  | nil => cases hc
  | cons n ns =>
    unfold refsAts
    rcases List.mem_cons.mp hc with hc | hc
    · rw [hc] at h ha
      exact List.mem_append_left _ (mem_refsAt_of_under anc n r t h hp ha)
    · exact List.mem_append_right _ (mem_refsAts_of_under anc ns c r t hc h hp ha)
end

theorem mem_refsOf (root r : JNode) (ha : RefsApart root) : r ∈ refsOf root ↔ IsRef root r := by
  constructor
  · intro h
    obtain ⟨t, h1, h2⟩ := under_of_mem_refsAt _ _ _ h
    exact ⟨t, h1, by simpa using h2⟩
  · rintro ⟨t, h1, h2⟩
    refine mem_refsAt_of_under [] root r t h1 (by simpa using h2) ?_
    intro t1 t2 p ht h4 h5 h6 hr
    subst ht
    exact ha t2 p h4 (by simpa using hr) t1 r h5 h6 h2

/-! ### Reading -/

theorem skipSpaces_repaired (data : Str) : skipSpaces (repairedXml data) = repairedXml data := by
  obtain ⟨ws, rest, _, _, h3, h4⟩ := repaired_repairedXml data
  have : (repairedXml data).head? ≠ some ' ' := by
    intro hc
    revert hc
    generalize repairedXml data = d at h4
    cases h4 with
    | nil => simp
    | found s t _ => simp
    | other c s t hn _ =>
      intro hc
      simp only [List.head?_cons, Option.some.injEq] at hc
      subst hc
      exact h3 ' ' rfl (by decide)
  cases h : repairedXml data with
  | nil => rfl
  | cons c s =>
    rw [h] at this
    unfold skipSpaces
    rw [List.dropWhile_cons, if_neg]
    simpa using this

theorem repaired_unique {data a b : Str} (h : Repaired data a) (h' : Repaired data b) : a = b := by
  have key : ∀ a, Repaired data a → Substituted c!"&dagger;" c!"&#x2020;" (data.dropWhile isAsciiSpace) a := by
    rintro a ⟨ws, rest, rfl, h2, h3, h4⟩
    have : (ws ++ rest).dropWhile isAsciiSpace = rest := by
      rw [List.dropWhile_append_of_pos (fun c hc => (mem_asciiSpace c).mpr (h2 c hc))]
      cases rest with
      | nil => rfl
      | cons c rest =>
        rw [List.dropWhile_cons, if_neg]
        intro hc
        exact h3 c rfl ((mem_asciiSpace c).mp hc)
    rw [this]; exact h4
  exact substituted_unique (by decide) (key a h) (key b h')

theorem parseXml_ok (parse : Str → Except Nat JNode) (data : Str) (root : JNode) :
    parseXml parse false data = .ok root ↔ Parses parse data (.ok root) := by
  rw [parses_iff]
  unfold parseXml
  simp only [Bool.false_eq_true, if_false]
  constructor
  · intro h
    split at h
    · next r hr => cases h; exact hr
    · split at h
      · cases h
      · split at h <;> cases h
  · intro h; rw [h]

theorem parseXml_value (parse : Str → Except Nat JNode) (data : Str) (line : Str) :
    parseXml parse false data = .error (.valueError, line) ↔
      ∃ lineno, Parses parse data (.error lineno) ∧ LineAt data lineno line := by
  constructor
  · intro h
    unfold parseXml at h
    simp only [Bool.false_eq_true, if_false] at h
    split at h
    · cases h
    · next lineno he =>
      refine ⟨lineno, (parses_iff _ _ _).mpr he, ?_⟩
      by_cases h0 : lineno = 0
      · rw [if_pos h0] at h; cases h
      · rw [if_neg h0] at h
        split at h
        · next line' hl =>
          cases h
          have := lineAt_of_fileLines _ _ _ hl
          rwa [Nat.sub_add_cancel (by omega)] at this
        · cases h
  · rintro ⟨lineno, h1, h2⟩
    obtain ⟨h3, h4⟩ := fileLines_of_lineAt _ _ _ h2
    unfold parseXml
    simp only [Bool.false_eq_true, if_false, (parses_iff _ _ _).mp h1, h3, h4]

theorem parseXml_fixed (parse : Str → Except Nat JNode) (data : Str) (root : JNode) :
    parseXml parse true data = .ok root ↔ ∃ data', Repaired data data' ∧ Parses parse data' (.ok root) := by
  have h : parseXml parse true data = parseXml parse false (repairedXml data) := rfl
  rw [h, parseXml_ok]
  constructor
  · intro h; exact ⟨_, repaired_repairedXml data, h⟩
  · rintro ⟨d, h1, h2⟩
    rwa [repaired_unique h1 (repaired_repairedXml data)] at h2

/-- How the file is read by the program. -/
def readFile (parse : Str → Except Nat JNode) (data : Str) : Except Err (JNode × Bool) :=
  match parseXml parse false data with
  | .ok root => .ok (root, false)
  | .error (.valueError, _) =>
    match parseXml parse true data with
    | .ok root => .ok (root, true)
    | .error (e, _) => .error e
  | .error (e, _) => .error e

/-- The rest of the repair. -/
def finishFile (env : JatsEnv) (ser : JNode → Str) (now : Str) (p : JNode × Bool) : Except Err JNode :=
  match fixJatsNode env p.1 with
  | .error e => .error e
  | .ok fixed =>
    match metaEntries ser now fixed p.1 p.2 with
    | .error e => .error e
    | .ok entries => .ok (addMetaData entries fixed)

theorem fixJatsFile_eq (env : JatsEnv) (parse : Str → Except Nat JNode) (ser : JNode → Str) (now data : Str) :
    fixJatsFile env parse ser now data =
      match readFile parse data with
      | .ok p => finishFile env ser now p
      | .error e => .error e := by
  unfold fixJatsFile readFile finishFile
  cases h : parseXml parse false data with
  | ok root => rfl
  | error p =>
    obtain ⟨e, l⟩ := p
    cases e <;> simp only
    cases h2 : parseXml parse true data with
    | ok root => rfl
    | error p => rfl

theorem readFile_iff (parse : Str → Except Nat JNode) (data : Str) (root : JNode) (m : Bool) :
    readFile parse data = .ok (root, m) ↔ ReadAs parse data root m := by
  constructor
  · intro h
    unfold readFile at h
    split at h
    · next r hr => cases h; exact .plain _ ((parseXml_ok _ _ _).mp hr)
    · next line hl =>
      split at h
      · next r hr =>
        cases h
        obtain ⟨lineno, h1, h2⟩ := (parseXml_value _ _ _).mp hl
        obtain ⟨d, h3, h4⟩ := (parseXml_fixed _ _ _).mp hr
        exact .repaired _ _ _ _ h1 h2 h3 h4
      · cases h
    · cases h
  · intro h
    unfold readFile
    cases h with
    | plain h => rw [(parseXml_ok _ _ _).mpr h]
    | repaired lineno line d h1 h2 h3 h4 =>
      rw [(parseXml_value _ _ _).mpr ⟨lineno, h1, h2⟩]
      simp only [(parseXml_fixed _ _ _).mpr ⟨d, h3, h4⟩]

/-! ### Meta data -/

theorem changedOf_eq (ser : JNode → Str) (a b : List JNode) (h : b.length = a.length) :
    ((b.zip a).filter (fun p => decide (ser p.1 ≠ ser p.2))).map Prod.snd = changedOf ser a b := by
  induction a generalizing b with
  | nil => cases b with
    | nil => rfl
    | cons => cases h
  | cons x a ih => cases b with
    | nil => cases h
    | cons y b =>
      simp only [List.length_cons, Nat.add_right_cancel_iff] at h
      rw [List.zip_cons_cons, List.filter_cons, changedOf]
      by_cases hs : ser x = ser y
      · simp [hs, ← ih b h]
      · simp only [if_neg hs]
        rw [if_pos (by simpa using Ne.symm hs), List.map_cons, ih b h]

theorem metaPairs_map (i : Nat) (l : List (Str × Str)) : MetaPairs (l.map (fun p => metaElement i p.1 p.2)) l := by
  induction l with
  | nil => trivial
  | cons p l ih => exact ⟨⟨rfl, rfl⟩, ih⟩

theorem metaAdded_addMetaData (entries : List (Str × Str)) (root : JNode) (h : entries ≠ []) :
    ∃ added, MetaPairs added entries ∧ MetaAdded root (addMetaData entries root) added := by
  refine ⟨entries.map (fun p => metaElement (freshId root) p.1 p.2), metaPairs_map _ _, ?_⟩
  unfold addMetaData
  rw [if_neg (by simpa using h)]
  split
  · next k hk =>
    refine ⟨rfl, rfl, rfl, rfl, rfl, .inl ?_⟩
    obtain ⟨hlt, hp, hn⟩ := List.findIdx?_eq_some_iff_getElem.mp hk
    refine ⟨root.children.take k, root.children[k], root.children.drop (k + 1), ?_, by simpa using hp, ?_, ?_⟩
    · rw [List.getElem_cons_drop, List.take_append_drop]
    · intro n hm
      obtain ⟨j, hj, rfl⟩ := List.mem_take_iff_getElem.mp hm
      have := hn j (by omega)
      simpa using this
    · show root.children.modify k _ = _
      rw [List.modify_eq_take_cons_drop hlt]
      rfl
  · next hk =>
    refine ⟨rfl, rfl, rfl, rfl, rfl, .inr ⟨?_, freshId root, rfl⟩⟩
    intro n hn
    have := List.findIdx?_eq_none_iff.mp hk n hn
    simpa using this

end Verif
