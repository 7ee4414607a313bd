/-
C102: repairing a JATS file changes its references only, and says which of them.
-/
import Verif.Lemmas.JatsDoc
import Verif.Props.JatsFix

namespace Verif

open Spec

/-- C102: a file is repaired if and only if it can be read, possibly after repairing it as text, and every reference
can be repaired. -/
theorem C102_succeeds (env : JatsEnv) (parse : Str → Except Nat JNode) (ser : JNode → Str) (now data : Str) :
    (∃ out, fixJatsFile env parse ser now data = .ok out) ↔
      ∃ root malformed, ReadAs parse data root malformed ∧ ∀ r ∈ refsOf root, ∃ r', fixReference env r = .ok r' := by
  rw [fixJatsFile_eq]
  constructor
  · rintro ⟨out, h⟩
    cases hr : readFile parse data with
    | error e => rw [hr] at h; cases h
    | ok p =>
      obtain ⟨root, m⟩ := p
      refine ⟨root, m, (readFile_iff _ _ _ _).mp hr, ?_⟩
      rw [hr] at h
      simp only [finishFile] at h
      split at h
      · cases h
      · next fixed hf =>
        obtain ⟨_, _, h3⟩ := mapRefsAt_ok _ (keepsRoot_fixReference env) _ _ _ hf
        intro r hm
        have : fixReference env r ∈ (refsAt [] root).map (fixReference env) := List.mem_map_of_mem hm
        rw [h3] at this
        obtain ⟨r', _, h5⟩ := List.mem_map.mp this
        exact ⟨r', h5.symm⟩
  · rintro ⟨root, m, h1, h2⟩
    rw [(readFile_iff _ _ _ _).mpr h1]
    simp only [finishFile]
    split
    · next e he =>
      obtain ⟨r, hm, hr⟩ := mapRefsAt_error _ _ _ _ he
      obtain ⟨r', h3⟩ := h2 r hm
      rw [hr] at h3; cases h3
    · next fixed hf =>
      obtain ⟨_, _, h3⟩ := mapRefsAt_ok _ (keepsRoot_fixReference env) _ _ _ hf
      have hl : (refsOf fixed).length = (refsOf root).length := h3.length
      unfold metaEntries changedRefs
      rw [if_neg (by simpa using hl)]
      exact ⟨_, rfl⟩

/-- C102: the document written is the document read with each reference replaced by its repaired version, with
everything else the same, and with five entries added: these say when it was written, whether the file was malformed,
and which references, in their order, were changed. -/
theorem C102_document (env : JatsEnv) (parse : Str → Except Nat JNode) (ser : JNode → Str) (now data : Str) (out : JNode)
    (h : fixJatsFile env parse ser now data = .ok out) :
    ∃ root malformed fixed changed added,
      ReadAs parse data root malformed ∧
      emptyRefs fixed = emptyRefs root ∧ (refsOf root).map (fixReference env) = (refsOf fixed).map .ok ∧
      changed = changedOf ser (refsOf root) (refsOf fixed) ∧
      MetaAdded fixed out added ∧
      MetaPairs added [
        (c!"fix-jats-note", c!"This XML file had been modified to fix some of the potential errors."),
        (c!"fix-jats-run-timestamp", now),
        (c!"fix-jats-malformatted-xml", if malformed then c!"true" else c!"false"),
        (c!"fix-jats-changed-reference-count", Nat.toDigits 10 changed.length),
        (c!"fix-jats-changed-reference-ids", joinStr c!"," (changed.map (fun r => r.attrs.getD c!"id" [])))] := by
  rw [fixJatsFile_eq] at h
  cases hr : readFile parse data with
  | error e => rw [hr] at h; cases h
  | ok p =>
    obtain ⟨root, m⟩ := p
    rw [hr] at h
    simp only [finishFile] at h
    split at h
    · cases h
    · next fixed hf =>
      obtain ⟨_, h2, h3⟩ := mapRefsAt_ok _ (keepsRoot_fixReference env) _ _ _ hf
      have hl : (refsOf fixed).length = (refsOf root).length := h3.length
      split at h
      · cases h
      · next entries he =>
        cases h
        unfold metaEntries changedRefs at he
        rw [if_neg (by simpa using hl)] at he
        simp only [Except.ok.injEq] at he
        obtain ⟨added, h5, h6⟩ := metaAdded_addMetaData entries fixed (by rw [← he]; exact List.cons_ne_nil _ _)
        refine ⟨root, m, fixed, _, added, (readFile_iff _ _ _ _).mp hr, h2, h3, rfl, h6, ?_⟩
        rw [← he, changedOf_eq _ _ _ hl] at h5
        exact h5

/-- C102: how a file is read is determined by its data. -/
theorem C102_read_unique (parse : Str → Except Nat JNode) (data : Str) (root root' : JNode) (m m' : Bool)
    (h : ReadAs parse data root m) (h' : ReadAs parse data root' m') : root = root' ∧ m = m' := by
  have := ((readFile_iff _ _ _ _).mpr h).symm.trans ((readFile_iff _ _ _ _).mpr h')
  cases this
  exact ⟨rfl, rfl⟩

/-- C102: the references are the elements `ref` in `ref-list` in `back`. -/
theorem C102_references (root r : JNode) (h : RefsApart root) : r ∈ refsOf root ↔ IsRef root r := mem_refsOf root r h

/-- C102: the attributes of a reference, like its id, and what follows it are kept. -/
theorem C102_reference_kept (env : JatsEnv) (r r' : JNode) (h : fixReference env r = .ok r') :
    r'.tag = r.tag ∧ r'.attrs = r.attrs ∧ r'.tail = r.tail :=
  ⟨(keepsRoot_fixReference env r r' h).2.1, (keepsRoot_fixReference env r r' h).2.2.1, (keepsRoot_fixReference env r r' h).2.2.2⟩

/-- C102: the ids of changed references can be read from the text listing them. -/
theorem C102_ids (changed : List JNode) (hne : changed ≠ []) (h : ∀ r ∈ changed, ',' ∉ r.attrs.getD c!"id" []) :
    splitOn ',' (joinStr c!"," (changed.map (fun r => r.attrs.getD c!"id" []))) = changed.map (fun r => r.attrs.getD c!"id" []) := by
  refine splitOn_joinStr _ _ (by simpa using hne) ?_
  intro f hf
  obtain ⟨r, hr, rfl⟩ := List.mem_map.mp hf
  exact h r hr

/-- C102: a file whose error has no line in the file is not repaired. -/
theorem C102_no_line (env : JatsEnv) (parse : Str → Except Nat JNode) (ser : JNode → Str) (now data : Str) (lineno : Nat)
    (h : Parses parse data (.error lineno)) (hl : ∀ line, ¬ LineAt data lineno line) (out : JNode) :
    fixJatsFile env parse ser now data ≠ .ok out := by
  intro hc
  obtain ⟨root, m, h1, _⟩ := (C102_succeeds env parse ser now data).mp ⟨out, hc⟩
  rw [parses_iff] at h
  cases h1 with
  | plain h1 => rw [parses_iff, h] at h1; cases h1
  | repaired n line d h1 h2 =>
    rw [parses_iff, h] at h1
    cases h1
    exact hl line h2

/-! ### Examples -/

/-- A document with these references and other elements. -/
def jatsExampleDoc (group : List JNode) (refs : List JNode) : JNode :=
  jEl 100 c!"article" none (group ++ [
    jEl 101 c!"ref" (some c!"not a reference") [] none,
    jEl 102 c!"back" (some c!"x") [jEl 103 c!"ref-list" none (jEl 104 c!"title" (some c!"References") [] none :: refs) none] none]) none

/-- A reference with an id. -/
def jatsExampleRef (id : Str) (t : Option Str) (cs : List JNode) : JNode :=
  .mk 0 c!"ref" [(c!"id", id)] none [jEl 1 c!"mixed-citation" t cs none] (some c!"\n")

/-- The document of the examples: the second reference has a DOI annotation with other text. -/
def jatsExampleRoot : JNode := jatsExampleDoc [] [
  jatsExampleRef c!"r1" (some c!"A.") [],
  jatsExampleRef c!"r2" (some c!"B. ") [jPubId 2 c!"doi" (some c!"doi: 10.1234/a") [] none]]

/-- A parser for the examples: only the repaired data can be parsed. -/
def jatsExampleParse (data : Str) : Except Nat JNode :=
  if data = c!"<a>&#x2020;</a>" then .ok jatsExampleRoot else .error 2

/-- Texts of elements, enough to tell the examples apart. -/
def jatsExampleSer (n : JNode) : Str := (jAll n).flatMap (fun e => e.tag ++ orEmpty e.text ++ c!"|")

/-- Non-vacuity of C102: the file is malformed and read after its repair; one reference is changed. -/
example : ∃ out, fixJatsFile jatsFixExampleEnv jatsExampleParse jatsExampleSer c!"now" c!"\n<a>&dagger;</a>" = .ok out ∧
    (jAlls out.children).map (fun e => (e.tag, orEmpty e.text)) = [
      (c!"custom-meta-group", c!"\n"),
      (c!"custom-meta", []), (c!"meta-name", c!"fix-jats-note"),
      (c!"meta-value", c!"This XML file had been modified to fix some of the potential errors."),
      (c!"custom-meta", []), (c!"meta-name", c!"fix-jats-run-timestamp"), (c!"meta-value", c!"now"),
      (c!"custom-meta", []), (c!"meta-name", c!"fix-jats-malformatted-xml"), (c!"meta-value", c!"true"),
      (c!"custom-meta", []), (c!"meta-name", c!"fix-jats-changed-reference-count"), (c!"meta-value", c!"1"),
      (c!"custom-meta", []), (c!"meta-name", c!"fix-jats-changed-reference-ids"), (c!"meta-value", c!"r2"),
      (c!"ref", c!"not a reference"), (c!"back", c!"x"), (c!"ref-list", []), (c!"title", c!"References"),
      (c!"ref", []), (c!"mixed-citation", c!"A."),
      (c!"ref", []), (c!"mixed-citation", c!"B. doi: "), (c!"pub-id", c!"10.1234/a")] :=
  exists_of_okAnd (by decide +kernel)

/-- Non-vacuity of C102: entries of an existing group are kept. -/
example : (addMetaData [(c!"k", c!"v")] (jatsExampleDoc [jEl 1 c!"x" none [] none,
      jEl 2 c!"custom-meta-group" none [jEl 3 c!"custom-meta" (some c!"old") [] none] none] [])).children.map
        (fun e => (e.tag, e.children.map (fun c => c.tag ++ orEmpty c.text))) =
    [(c!"x", []), (c!"custom-meta-group", [c!"custom-metaold", c!"custom-meta"]), (c!"ref", []), (c!"back", [c!"ref-list"])] := by
  decide +kernel

/-- Non-vacuity of `C102_no_line`: the error is reported for the line after the last one. -/
example : Parses jatsExampleParse c!"<a>\n" (.error 2) ∧ ∀ line, ¬ LineAt c!"<a>\n" 2 line := by
  refine ⟨(parses_iff _ _ _).mpr rfl, fun line h => ?_⟩
  have := (fileLines_of_lineAt _ _ _ h).2
  cases this

/-- C102: one reference that cannot be repaired is enough for a file not to be repaired. -/
theorem C102_one_bad_reference :
    fixJatsFile jatsFixExampleEnv
      (fun _ => .ok (jatsExampleDoc [] [jatsExampleRef c!"r1" (some c!"A.") [],
        jatsExampleRef c!"r2" none [jPubId 2 c!"doi" none [] (some c!"x")]]))
      jatsExampleSer c!"now" c!"<a/>" = .error .runtimeError := rfl

end Verif
