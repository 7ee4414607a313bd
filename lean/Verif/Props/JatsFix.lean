/-
C47, C49, C80: changes to reference elements.
-/
import Verif.Lemmas.JatsFix
import Verif.Lemmas.Ok

namespace Verif

open Spec

/-- C47: fixing a reference never adds text and never duplicates text: no character occurs more
often in the text of the fixed reference than in the text of the reference. -/
theorem C47_no_text_added (env : JatsEnv) (ho : SpansOrdered env) (n n' : JNode) (h : fixReference env n = .ok n') (x : Char) :
    (jText n').count x ≤ (jText n).count x :=
  runFixes_count ho fixSteps n n' h x

/-- C47 (partial): the text of a reference is kept, character by character and in order, if no
step comes across an element for which text is lost or moved (`Spec.safeAt`).  Missing: for such
elements text is lost (`C47_tail_lost`, `C47_inner_text_lost`) or moved (`C47_text_moved`,
`C47_link_text_moved`, `C47_comment_text_moved`). -/
theorem C47_text_kept_partial (env : JatsEnv) (ho : SpansOrdered env) (n n' : JNode) (hs : safeRun env fixSteps n = true)
    (h : fixReference env n = .ok n') : jText n' = jText n :=
  runFixes_safe ho fixSteps n n' hs h

/-- The steps that keep the text of every reference. -/
def alwaysSafe : List JatsFix := [.lowerType, .titleQuotes, .linkHref, .addPii, .addPiiOther, .addDoi]

theorem safeIds_always (env : JatsEnv) (k : JatsFix) (hk : k ∈ alwaysSafe) (is : List Nat) (n : JNode) :
    safeIds env k is n = true := by
  have hat : ∀ c, safeAt env k c = true := by
    intro c
    simp only [alwaysSafe, List.mem_cons, List.not_mem_nil, or_false] at hk
    rcases hk with rfl | rfl | rfl | rfl | rfl | rfl <;> rfl
  induction is generalizing n with
  | nil => rfl
  | cons i is ih =>
    unfold safeIds
    have h1 : safeId env k i n = true := by simp [safeId, hat]
    rw [h1, Bool.true_and]
    split
    · exact ih _
    · rfl

/-- C47: converting the types of identifiers, moving quotes and commas out of titles, fixing link
targets and adding PII or DOI annotations keeps the text of every reference. -/
theorem C47_steps_keep_text (env : JatsEnv) (ho : SpansOrdered env) (k : JatsFix) (hk : k ∈ alwaysSafe) (n n' : JNode)
    (h : runFix env k n = .ok n') : jText n' = jText n :=
  runIds_safe ho k _ n n' (safeIds_always env k hk _ _) h

/-! ### Examples and violations -/

/-- An element without attributes. -/
def jEl (i : Nat) (tag : Str) (t : Option Str) (cs : List JNode) (tl : Option Str) : JNode := .mk i tag [] t cs tl

/-- A reference with one mixed citation. -/
def jRef (t : Option Str) (cs : List JNode) : JNode := jEl 0 c!"ref" none [jEl 1 c!"mixed-citation" t cs none] none

/-- An identifier. -/
def jPubId (i : Nat) (type : Str) (t : Option Str) (cs : List JNode) (tl : Option Str) : JNode :=
  .mk i c!"pub-id" [(c!"pub-id-type", type)] t cs tl

/-- Parameters for the examples. -/
def jatsFixExampleEnv : JatsEnv where
  toJatsTextEnv := jatsFixTextEnv
  lower s := s.map (·.toLower)
  piiValid _ := none
  piiOther _ := none
  pmid s := if s = c!" PMID 123" then some (6, 9) else if s = c!"PMID 123 rest" then some (5, 8) else none
  pmidFix s := if s = c!"123 x" then some (0, 3) else none
  pmcid _ := none
  wos _ := none
  doiUrlPrefix s := if s = c!"https://doi.org/" then some (0, 16) else none
  doiExtLink _ := none
where
  jatsFixTextEnv : JatsTextEnv := ⟨asciiClass, fun c => c = '.' || c = '/' || c = '-', fun _ => none, fun _ => none⟩

theorem jatsFixExampleEnv_ordered : SpansOrdered jatsFixExampleEnv := by
  constructor <;> intro s a b h <;> simp only [jatsFixExampleEnv, jatsFixExampleEnv.jatsFixTextEnv] at h
  all_goals first
    | cases h
    | (repeat' split at h) <;> first | (injection h with h; cases h; omega) | cases h

/-- Non-vacuity of C47: a reference with a quoted title containing an element, a DOI and a PMID
that is not annotated.  The quotes, the text before the DOI and the PMID end up outside or inside
of annotations; the text is the same. -/
example : let n := jRef (some c!"A. ") [
      jEl 2 c!"article-title" (some c!"“A ") [jEl 3 c!"italic" (some c!"b") [] (some c!" c”")] (some c!". "),
      jPubId 4 c!"DOI" (some c!"doi: 10.1234/a") [] (some c!" PMID 123")]
    safeRun jatsFixExampleEnv fixSteps n = true ∧
    ∃ n', fixReference jatsFixExampleEnv n = .ok n' ∧
      (jAlls n'.children).map (fun e => (e.tag, orEmpty e.text, orEmpty e.tail)) =
        [(c!"mixed-citation", c!"A. “", []), (c!"article-title", c!"A ", c!"”. doi: "), (c!"italic", c!"b", c!" c"),
          (c!"pub-id", c!"10.1234/a", c!" PMID "), (c!"pub-id", c!"123", [])] := by
  refine ⟨by decide +kernel, exists_of_okAnd (by decide +kernel)⟩

/-- C47 is violated: removing an identifier without a match loses the text behind it. -/
theorem C47_tail_lost : ∃ n',
    fixReference jatsFixExampleEnv (jRef (some c!"see ") [jPubId 2 c!"pmid" (some c!"none") [] (some c!" page 1")]) = .ok n' ∧
    jText n' = c!"see none" :=
  exists_of_okAnd (by decide +kernel)

/-- C47 is violated: removing an identifier without a match loses the text of elements inside. -/
theorem C47_inner_text_lost : ∃ n',
    fixReference jatsFixExampleEnv
      (jRef (some c!"see ") [jPubId 2 c!"pmid" (some c!"none") [jEl 3 c!"bold" (some c!" 123") [] none] none]) = .ok n' ∧
    jText n' = c!"see none" :=
  exists_of_okAnd (by decide +kernel)

/-- C47 is violated: text behind a match is moved over the elements inside of the annotation. -/
theorem C47_text_moved : ∃ n',
    fixReference jatsFixExampleEnv
      (jRef none [jPubId 2 c!"pmid" (some c!"123 x") [jEl 3 c!"bold" (some c!"y") [] none] none]) = .ok n' ∧
    jText n' = c!"123y x" :=
  exists_of_okAnd (by decide +kernel)

/-- C47 is violated: splitting a link moves its second part behind the text that follows. -/
theorem C47_link_text_moved : ∃ n',
    fixReference jatsFixExampleEnv
      (jRef none [.mk 2 c!"ext-link" [(xlinkHref, c!"http://a/http://b/")] (some c!"http://a/http://b/") [] (some c!". End")]) =
        .ok n' ∧
    jText n' = c!"http://a/. Endhttp://b/" :=
  exists_of_okAnd (by decide +kernel)

/-- C47 is violated: an identifier found in a comment is moved behind the text that follows. -/
theorem C47_comment_text_moved : ∃ n',
    fixReference jatsFixExampleEnv
      (jRef none [jEl 2 c!"comment" (some c!"PMID 123 rest") [] (some c!". End")]) = .ok n' ∧
    jText n' = c!"PMID . End123 rest" :=
  exists_of_okAnd (by decide +kernel)

/-- C49 is violated: the opening quote is removed although the title contains the corresponding
closing quote (the closing quote of another pair is looked for). -/
theorem C49_only_opening_removed : ∃ n',
    fixReference jatsFixExampleEnv (jRef none [jEl 2 c!"article-title" (some c!"“A” b") [] none]) = .ok n' ∧
    (jAlls n'.children).map (fun e => (e.tag, orEmpty e.text)) =
      [(c!"mixed-citation", c!"“"), (c!"article-title", c!"A” b")] :=
  exists_of_okAnd (by decide +kernel)

/-- C49 is violated: only the closing quote is removed if the title starts with an element. -/
theorem C49_only_closing_removed : ∃ n',
    fixReference jatsFixExampleEnv
      (jRef none [jEl 2 c!"article-title" none [jEl 3 c!"italic" (some c!"“A") [] (some c!" b”")] none]) = .ok n' ∧
    (jAlls n'.children).map (fun e => (e.tag, orEmpty e.text, orEmpty e.tail)) =
      [(c!"mixed-citation", [], []), (c!"article-title", [], c!"”"), (c!"italic", c!"“A", c!" b")] :=
  exists_of_okAnd (by decide +kernel)

/-- C80 (partial): a step fails on an element only if it is the replacement of DOIs by links, and
then there is no text before the DOI or it has no text.  Missing: such elements make the
conversion fail (`C80_empty_doi_fails`, `C80_adjacent_dois_fail`). -/
theorem C80_failures_partial (env : JatsEnv) (hcc : DigitsPlain env.cc) (h10 : ∀ c ∈ c!"10.", env.cc.isSpace c = false)
    (ht : TruncatesAtGap env.toJatsTextEnv) (k : JatsFix) (fresh : Nat) (c : JCtx) (e : Err)
    (h : fixOp env k fresh c = .error e) :
    k = .doiLink ∧ (e = .runtimeError ∧ previousText c.text c.left = none ∨ e = .typeError ∧ c.el.text = none) := by
  have hfind : ∀ s, ∃ o, fixFind env k s = .ok o := by
    intro s
    have hdoi : ∃ o, findDoi env.toJatsTextEnv s = .ok o := by
      rcases findDoi_spec env.toJatsTextEnv hcc h10 ht s with h | ⟨a, b, h, -⟩
      · exact ⟨_, h⟩
      · exact ⟨_, h⟩
    cases k <;> first | exact hdoi | exact ⟨_, rfl⟩
  have hif : ∀ (p : Prop) [Decidable p] (s : Str), ∃ o, (if p then fixFind env k s else .ok none) = .ok o := by
    intro p _ s
    split
    · exact hfind s
    · exact ⟨_, rfl⟩
  have hchange : ∀ e, changeOp (fixFind env k) c ≠ .error e := by
    intro e h
    unfold changeOp at h
    split at h
    · cases h
    · next text _ =>
      obtain ⟨o, ho⟩ := hfind text
      rw [ho] at h
      cases o with
      | none => cases h
      | some p => cases h
  have hadd : ∀ create pc e, addOp (fixFind env k) create pc c ≠ .error e := by
    intro create pc e h
    have htails : ∀ ns, ∃ o, addToTails (fixFind env k) create ns = .ok o := by
      intro ns
      induction ns with
      | nil => exact ⟨_, rfl⟩
      | cons n ns ih =>
        obtain ⟨o, ho⟩ := hif (truthy n.tail = true) (orEmpty n.tail)
        obtain ⟨r, hr⟩ := ih
        unfold addToTails
        rw [ho, hr]
        cases o with
        | some p => exact ⟨_, rfl⟩
        | none => cases r <;> exact ⟨_, rfl⟩
    have hcomments : ∀ ns, ∃ o, addToComments (fixFind env k) create ns = .ok o := by
      intro ns
      induction ns with
      | nil => exact ⟨_, rfl⟩
      | cons n ns ih =>
        obtain ⟨o, ho⟩ := hif (n.tag = c!"comment" ∧ truthy n.text = true) (orEmpty n.text)
        obtain ⟨r, hr⟩ := ih
        unfold addToComments
        rw [ho, hr]
        cases o <;> exact ⟨_, rfl⟩
    have : ∃ o, addAnnotation (fixFind env k) create pc c.el = .ok o := by
      obtain ⟨o, ho⟩ := hif (truthy c.el.text = true) (orEmpty c.el.text)
      obtain ⟨r, hr⟩ := htails c.el.children
      obtain ⟨s, hs⟩ := hcomments c.el.children
      unfold addAnnotation
      rw [ho, hr, hs]
      cases o with
      | some p => exact ⟨_, rfl⟩
      | none => cases r <;> cases pc <;> exact ⟨_, rfl⟩
    obtain ⟨o, ho⟩ := this
    unfold addOp at h
    rw [ho] at h
    cases h
  cases k <;> simp only [fixOp] at h
  case doiLink =>
    refine ⟨rfl, ?_⟩
    unfold doiLinkOp at h
    split at h
    · next hp => cases h; exact .inl ⟨rfl, hp⟩
    · split at h
      · cases h
      · split at h
        · next ht => cases h; exact .inr ⟨rfl, ht⟩
        · cases h
  case lowerType => cases h
  case titleQuotes => cases h
  case linkHref => cases h
  case splitLink =>
    unfold splitLinkOp at h
    simp only [] at h
    split at h
    · cases h
    · split at h <;> cases h
  case title | doi | linkText | pii | pmid | pmcid => exact absurd h (hchange e)
  all_goals exact absurd h (hadd _ _ e)

/-- C80 is violated: a DOI annotation without text and without text before it. -/
theorem C80_empty_doi_fails :
    fixReference jatsFixExampleEnv (jRef none [jPubId 2 c!"doi" none [] (some c!"x")]) = .error .runtimeError := rfl

/-- C80 is violated: two DOIs next to each other, the first of them given as URL. -/
theorem C80_adjacent_dois_fail :
    fixReference jatsFixExampleEnv (jRef (some c!"https://doi.org/")
      [jPubId 2 c!"doi" (some c!"10.1234/a") [] none, jPubId 3 c!"doi" (some c!"10.1234/b") [] none]) = .error .runtimeError := rfl

/-! ### C82: added identifiers -/

/-- C82: if the reference has an annotated identifier of the type, no identifiers are added (for
PII this also holds for the identifiers of the type `other`). -/
theorem C82_only_missing (env : JatsEnv) (k : JatsFix) (type blocking : Str) (hk : addedType k = some (type, some blocking))
    (n : JNode) (h : ∃ e ∈ jAlls n.children, e.tag = c!"pub-id" ∧ e.attrs.get? c!"pub-id-type" = some blocking) :
    runFix env k n = .ok n := by
  obtain ⟨e, he, h1, h2⟩ := h
  have hsel : (selectIds (isPubId blocking) n).isEmpty = false := by
    rw [Bool.eq_false_iff]
    intro hc
    have hc := List.isEmpty_iff.mp hc
    have : e.id ∈ selectIds (isPubId blocking) n :=
      List.mem_map.mpr ⟨e, List.mem_filter.mpr ⟨he, by simp [isPubId, h1, h2]⟩, rfl⟩
    rw [hc] at this
    cases this
  have hids : fixSelect k n = [] := by
    cases k <;> simp only [addedType] at hk <;> cases hk <;>
      (simp only [fixSelect, citationsUnless]; rw [hsel]; rfl)
  unfold runFix
  rw [hids]
  rfl

/-- C82: a step that adds identifiers to a citation changes no identifier that is there, and what
it adds is an identifier of its type whose text was found by its pattern. -/
theorem C82_added (env : JatsEnv) (k : JatsFix) (type : Str) (blocking : Option Str) (hk : addedType k = some (type, blocking))
    (fresh : Nat) (c : JCtx) (hc : c.el.tag ≠ c!"pub-id") (t : Option Str) (cs : List JNode) (b : Bool)
    (h : fixOp env k fresh c = .ok (t, cs, b)) :
    t = c.text ∧ ∀ e ∈ jAlls cs, e.tag = c!"pub-id" →
      (∃ e0 ∈ jAlls (c.left ++ c.el :: c.right), e0.tag = c!"pub-id" ∧ e0.attrs = e.attrs ∧ e0.text = e.text) ∨
      e.attrs = [(c!"pub-id-type", type)] ∧
        ∃ s start stop, fixFind env k s = .ok (some (start, stop)) ∧ e.text = some (sliceStr s start stop) := by
  have key : ∀ pc, addOp (fixFind env k) (fun s => pubIdElement fresh s type) pc c = .ok (t, cs, b) → t = c.text ∧
      ∀ e ∈ jAlls cs, e.tag = c!"pub-id" →
      (∃ e0 ∈ jAlls (c.left ++ c.el :: c.right), e0.tag = c!"pub-id" ∧ e0.attrs = e.attrs ∧ e0.text = e.text) ∨
      e.attrs = [(c!"pub-id-type", type)] ∧
        ∃ s start stop, fixFind env k s = .ok (some (start, stop)) ∧ e.text = some (sliceStr s start stop) := by
    intro pc h
    refine addOp_all (P := fun e => e.tag = c!"pub-id" →
      (∃ e0 ∈ jAlls (c.left ++ c.el :: c.right), e0.tag = c!"pub-id" ∧ e0.attrs = e.attrs ∧ e0.text = e.text) ∨
      e.attrs = [(c!"pub-id-type", type)] ∧
        ∃ s start stop, fixFind env k s = .ok (some (start, stop)) ∧ e.text = some (sliceStr s start stop)) ?_ ?_ hc h ?_
    · exact ⟨fun n _ h => by cases n; exact h, fun n _ h => by cases n; exact h,
        fun n _ hn _ htag => by cases n; exact absurd htag hn⟩
    · intro s a b' t' hs e he _
      have he : e = pubIdElement fresh (sliceStr s a b') type t' := by
        simpa [jAll, jAlls, pubIdElement] using he
      subst he
      exact .inr ⟨rfl, s, a, b', hs, rfl⟩
    · intro e he htag
      exact .inl ⟨e, he, htag, rfl, rfl⟩
  cases k <;> simp only [addedType] at hk <;> cases hk <;> exact key _ h

/-- Non-vacuity of C82: the PMID is added in the example of C47; here it is not, because there is
another one. -/
example : let n := jRef (some c!"A. ") [jPubId 2 c!"pmid" (some c!"77") [] (some c!" PMID 123")]
    ∃ n', runFix jatsFixExampleEnv .addPmid n = .ok n' ∧ jText n' = jText n ∧ (jAlls n'.children).length = 2 :=
  exists_of_okAnd (by decide +kernel)

end Verif
