/-
C154: the part of a document a tool works on.
-/
import Verif.Spec.Container
import Verif.Props.CommandLine
import Verif.Props.ToolPaths
import Verif.Props.Outside

namespace Verif
open Spec

theorem mem_findAll_iff (path : List Str) : ∀ (e x : Elem), x ∈ findAll path e ↔ ReachedBy path e x := by
  induction path with
  | nil =>
    intro e x
    rw [findAll, List.mem_singleton]
    constructor
    · intro h; subst h; exact .here _
    · intro h; cases h; rfl
  | cons t ts ih =>
    intro e x
    rw [findAll, List.mem_flatMap]
    constructor
    · rintro ⟨c, hc, hx⟩
      rw [List.mem_filter, decide_eq_true_eq] at hc
      obtain ⟨hc, rfl⟩ := hc
      exact .child hc ((ih c x).1 hx)
    · intro h
      cases h with
      | child hc h => exact ⟨_, List.mem_filter.2 ⟨hc, by simp⟩, (ih _ x).2 h⟩

theorem options_container {env : CliEnv} {c : CliArgs} {o : RunOpts} (h : c.options env = .ok o) :
    o.doc.containerPath = (toolPart c.tool).map (expandedName (toolNamespace c.tool)) := by
  have hp : o.doc.containerPath = c.tool.container := by
    unfold CliArgs.options at h
    simp only at h
    split at h
    · cases h
    split at h
    · cases h
    split at h
    · cases h
    split at h
    · cases h
    split at h
    · cases h
    split at h
    · cases h
    cases h
    rfl
  rw [hp]
  cases c.tool <;> rfl

/-- **C154.** For any options, the lines of a document come from the elements of the part the tool works on, and from nothing else:
these elements are found, and documents with the same ones are read alike. -/
theorem C154_part (env : CliEnv) (c : CliArgs) (o : RunOpts) (ho : c.options env = .ok o) (root : Elem) :
    (∀ x, x ∈ findAll o.doc.containerPath root ↔ ToolPart c.tool root x) ∧
    ∀ root', findAll o.doc.containerPath root' = findAll o.doc.containerPath root → loadDoc o.doc root' = loadDoc o.doc root := by
  refine ⟨fun x => ?_, fun root' hp => ?_⟩
  · rw [options_container ho]
    exact mem_findAll_iff _ _ _
  · unfold loadDoc
    rw [hp]

/-- **C154.** A document without that part has no lines, and it cannot be written. -/
theorem C154_missing (env : CliEnv) (c : CliArgs) (o : RunOpts) (ho : c.options env = .ok o) (root : Elem)
    (hnone : ∀ x, ¬ ToolPart c.tool root x) :
    (∃ d, loadDoc o.doc root = .ok d ∧ d.lines = []) ∧ ∀ d, docRoot o.doc root d = .error .runtimeError := by
  have hnil : findAll o.doc.containerPath root = [] := by
    apply List.eq_nil_iff_forall_not_mem.2
    intro x hx
    apply hnone x
    rw [options_container ho] at hx
    exact (mem_findAll_iff _ _ _).1 hx
  constructor
  · unfold loadDoc
    rw [hnil]
    refine ⟨_, rfl, ?_⟩
    cases o.doc.preserveTags <;> rfl
  · intro d
    unfold docRoot updatedTei
    rw [hnil]

/-- **C154.** The file written by a run, with any options, differs from the source file only inside of the first element of the part
the tool works on; in particular there is one. -/
theorem C154_written (env : CliEnv) (c : CliArgs) (o : RunOpts) (ho : c.options env = .ok o) (renv : RunEnv) (cfg : PipelineConfig)
    (fs : FileStore) (u p : Str) (x : Elem) (h : annotateFile renv o cfg fs u = .ok (some (p, x))) :
    ∃ root pos part part', SourceRoot renv o fs u root ∧
      FirstAt ((toolPart c.tool).map (expandedName (toolNamespace c.tool))) pos root ∧
      elemAt pos root = some part ∧ elemAt pos x = some part' ∧ part'.tag = part.tag ∧ SameOutside pos root x := by
  have h := C148_file renv o cfg fs u p x h
  rw [options_container ho] at h
  exact h

/-- Every prefix `tei:` of a path stands at its start or behind a slash. -/
def prefixesAtSteps : Option Char → Str → Bool
  | _, [] => true
  | prev, c :: s => (!startsWith c!"tei:" (c :: s) || prev == none || prev == some '/') && prefixesAtSteps (some c) s

theorem resolveNamespaceAux_class (cc : CharClass) (hw : cc.isWord '/' = false) (url : Str) : ∀ (s : Str) (prev : Option Char) (skip : Nat),
    prefixesAtSteps prev s = true →
    resolveNamespaceAux cc c!"tei" url prev skip s = resolveNamespaceAux asciiClass c!"tei" url prev skip s := by
  intro s
  induction s with
  | nil => intro prev skip _; cases skip <;> rfl
  | cons c s ih =>
    intro prev skip h
    rw [prefixesAtSteps, Bool.and_eq_true] at h
    cases skip with
    | succ k => exact ih (some c) k h.2
    | zero =>
      have hcond : (startsWith (c!"tei" ++ c!":") (c :: s) && !(prev.any cc.isWord)) =
          (startsWith (c!"tei" ++ c!":") (c :: s) && !(prev.any asciiClass.isWord)) := by
        have h1 := h.1
        rw [Bool.or_eq_true, Bool.or_eq_true] at h1
        rcases h1 with (h1 | h1) | h1
        · have : startsWith (c!"tei" ++ c!":") (c :: s) = false := by simpa using h1
          rw [this]; rfl
        · rw [eq_of_beq h1]; rfl
        · rw [eq_of_beq h1]
          simp only [Option.any_some, hw, show asciiClass.isWord '/' = false by decide]
      rw [resolveNamespaceAux, resolveNamespaceAux, hcond, ih (some c) _ h.2, ih (some c) _ h.2]

theorem resolveMapping_class (cc : CharClass) (hw : cc.isWord '/' = false) (m : Dict Str)
    (h : ∀ p ∈ m, prefixesAtSteps none p.2 = true) :
    resolveMapping cc teiNsMap m = resolveMapping asciiClass teiNsMap m := by
  unfold resolveMapping
  apply List.map_congr_left
  intro p hp
  show (p.1, resolveNamespaceAux cc c!"tei" _ none 0 p.2) = (p.1, resolveNamespaceAux asciiClass c!"tei" _ none 0 p.2)
  rw [resolveNamespaceAux_class cc hw _ p.2 none 0 (h p hp)]

theorem basePaths_class (cc : CharClass) (hw : cc.isWord '/' = false) (t : CliTool) : t.basePaths cc = t.basePaths asciiClass := by
  cases t with
  | figure s => exact resolveMapping_class cc hw _ (by decide +kernel)
  | table s => exact resolveMapping_class cc hw _ (by decide +kernel)
  | reference a b c => exact resolveMapping_class cc hw _ (by decide +kernel)
  | affiliation a b => exact resolveMapping_class cc hw _ (by decide +kernel)
  | _ => rfl

def inNamespaceB (ns : Option Str) (step : Str) : Bool :=
  (expandedName ns []).isPrefixOf step &&
    (step.drop (expandedName ns []).length).all (fun c => c != '{' && c != ':')

theorem inNamespace_of {ns : Option Str} {step : Str} (h : inNamespaceB ns step = true) : InNamespace ns step := by
  unfold inNamespaceB at h
  rw [Bool.and_eq_true] at h
  obtain ⟨r, hr⟩ := List.isPrefixOf_iff_prefix.1 h.1
  have h2 := h.2
  rw [← hr, List.drop_left, List.all_eq_true] at h2
  refine ⟨r, ?_, fun hm => ?_, fun hm => ?_⟩
  · rw [← hr]
    unfold expandedName
    cases ns <;> simp
  · simpa using h2 _ hm
  · simpa using h2 _ hm

/-- **C154.** The elements written for the labels of a tool are in the name space of the part it works on. Fields without a path of
their own are not (`C108_note_without_namespace`). -/
theorem C154_namespace_partial (cc : CharClass) (hw : cc.isWord '/' = false) (t : CliTool) (p : Str × Str) (hp : p ∈ t.basePaths cc) :
    ∀ step ∈ splitPath p.2, InNamespace (toolNamespace t) step := by
  rw [basePaths_class cc hw] at hp
  have h : (t.basePaths asciiClass).all (fun p => (splitPath p.2).all (inNamespaceB (toolNamespace t))) = true := by
    cases t <;> (simp only [CliTool.basePaths, toolNamespace]; decide +kernel)
  intro step hs
  exact inNamespace_of (List.all_eq_true.1 (List.all_eq_true.1 h p hp) step hs)

theorem plain_slashesEnclosed {e : Str} (he : ∀ c ∈ e, c ≠ '/' ∧ c ≠ '{' ∧ c ≠ '}') : Props.slashesEnclosed false e = true := by
  induction e with
  | nil => rfl
  | cons c e ih =>
    obtain ⟨h1, h2, h3⟩ := he c (List.mem_cons_self ..)
    rw [Props.slashesEnclosed, if_neg h2, if_neg h3, ih (fun c hc => he c (List.mem_cons_of_mem _ hc))]
    simp [h1]

theorem noteExpr_plain {tag : Str} (h : ∀ x ∈ tag, x ≠ '/' ∧ x ≠ '{' ∧ x ≠ '}' ∧ x ≠ ':') :
    ∀ x ∈ noteExpr tag, x ≠ '/' ∧ x ≠ '{' ∧ x ≠ '}' ∧ x ≠ ':' := by
  unfold noteExpr
  intro x hx
  rcases List.mem_append.1 hx with hx | hx
  · rcases List.mem_append.1 hx with hx | hx
    · exact (by decide : ∀ x ∈ c!"note[@type=\"", x ≠ '/' ∧ x ≠ '{' ∧ x ≠ '}' ∧ x ≠ ':') x hx
    · exact h x hx
  · exact (by decide : ∀ x ∈ c!"\"]", x ≠ '/' ∧ x ≠ '{' ∧ x ≠ '}' ∧ x ≠ ':') x hx

theorem options_paths {env : CliEnv} {c : CliArgs} {o : RunOpts} (h : c.options env = .ok o) :
    ∃ fields, o.doc.mapping = c.tool.paths env.tag.cc fields := by
  unfold CliArgs.options at h
  simp only at h
  split at h
  · cases h
  split at h
  · cases h
  split at h
  · cases h
  split at h
  · cases h
  split at h
  · cases h
  split at h
  · cases h
  cases h
  exact ⟨_, rfl⟩

/-- **C154.** Exactly: with any options, the elements of a label are in the name space of the part the tool works on if the label has a
path in the configuration of the tool, or if there is no name space. -/
theorem C154_namespace_iff (env : CliEnv) (hw : env.tag.cc.isWord '/' = false) (c : CliArgs) (o : RunOpts) (ho : c.options env = .ok o)
    (tag path : Str) (hplain : ∀ x ∈ tag, x ≠ '/' ∧ x ≠ '{' ∧ x ≠ '}' ∧ x ≠ ':') (hpath : o.doc.mapping.get? tag = some path) :
    (∀ step ∈ splitPath path, InNamespace (toolNamespace c.tool) step) ↔
      (c.tool.basePaths env.tag.cc).get? tag = some path ∨ toolNamespace c.tool = none := by
  obtain ⟨fields, hf⟩ := options_paths ho
  have hcases : (c.tool.basePaths env.tag.cc).get? tag = some path ∨
      ((c.tool.basePaths env.tag.cc).get? tag = none ∧ path = noteExpr tag) := by
    rw [hf] at hpath
    have hadd : (addFieldPaths (c.tool.basePaths env.tag.cc) fields).get? tag = some path →
        (c.tool.basePaths env.tag.cc).get? tag = some path ∨
          ((c.tool.basePaths env.tag.cc).get? tag = none ∧ path = noteExpr tag) := fun h => by
      rw [C108_fields] at h
      cases hb : (c.tool.basePaths env.tag.cc).get? tag with
      | some q =>
        rw [hb] at h
        exact .inl h
      | none =>
        rw [hb] at h
        simp only at h
        split at h
        · exact .inr ⟨rfl, (Option.some.inj h).symm⟩
        · cases h
    unfold CliTool.paths at hpath
    split at hpath
    · exact .inl hpath
    · exact hadd hpath
  have hbase : (c.tool.basePaths env.tag.cc).get? tag = some path →
      ∀ step ∈ splitPath path, InNamespace (toolNamespace c.tool) step := fun h =>
    C154_namespace_partial env.tag.cc hw c.tool (tag, path) (mem_of_get? h)
  rcases hcases with h | ⟨hb, hp⟩
  · exact ⟨fun _ => .inl h, fun _ => hbase h⟩
  · have hsteps : splitPath path = [noteExpr tag] := by
      rw [hp]
      refine Props.C56_path_round_trip_partial [noteExpr tag] (by simp) ?_
      intro e he
      rw [List.mem_singleton] at he
      subst he
      exact plain_slashesEnclosed (fun x hx => by
        obtain ⟨a, b, c, _⟩ := noteExpr_plain hplain x hx
        exact ⟨a, b, c⟩)
    constructor
    · intro h
      right
      obtain ⟨name, hn, _⟩ := h (noteExpr tag) (by rw [hsteps]; exact List.mem_singleton.2 rfl)
      cases hns : toolNamespace c.tool with
      | none => rfl
      | some u =>
        rw [hns] at hn
        exact absurd (List.cons.inj hn).1 (by decide)
    · rintro (h | h)
      · exact hbase h
      · intro step hs
        rw [hsteps, List.mem_singleton] at hs
        subst hs
        rw [h]
        exact ⟨noteExpr tag, rfl, fun hm => (noteExpr_plain hplain _ hm).2.1 rfl, fun hm => (noteExpr_plain hplain _ hm).2.2.2 rfl⟩

/-- A document of the tool for references: its list is found in the name space, but not without it. -/
def exPartRoot (ns : Option Str) : Elem :=
  let n := expandedName ns
  .mk (n c!"TEI") [] none [.mk (n c!"text") [] none [.mk (n c!"back") [] none [.mk (n c!"listBibl") [] (some c!"one") [] none] none] none] none

example : (findAll (CliTool.reference true true true).container (exPartRoot (toolNamespace (.reference true true true)))).length = 1 ∧
    (findAll (CliTool.reference true true true).container (exPartRoot none)).length = 0 ∧
    (findAll CliTool.referenceSegmenter.container (exPartRoot none)).length = 1 := by decide +kernel

example : (c!"author_aff-label", c!"{http://www.tei-c.org/ns/1.0}affiliation/{http://www.tei-c.org/ns/1.0}marker") ∈
    (CliTool.affiliation true true).basePaths asciiClass := by decide +kernel

/-- The tool for references with a field which is not in its configuration: `C154_namespace_iff` applies, and says that this field is
written outside of the name space. -/
def exPartCli : CliArgs := { exCli (some c!"+title") with tool := .reference true true true }

example : ∃ o, exPartCli.options exCliEnv = .ok o ∧ (o.doc.mapping.get? c!"title" = some c!"note[@type=\"title\"]" ∧
    (exPartCli.tool.basePaths exCliEnv.tag.cc).get? c!"title" = none ∧ toolNamespace exPartCli.tool ≠ none ∧
    o.doc.mapping.get? c!"reference" = some c!"{http://www.tei-c.org/ns/1.0}bibl") :=
  exists_of_okAnd (by decide +kernel)

end Verif
