/-
C155: the files of each tool.
-/
import Verif.Spec.FilePatterns
import Verif.Model.SourceFiles
import Verif.Lemmas.Download
import Verif.Lemmas.Tags
import Verif.Props.ToolRun

namespace Verif
open Spec

theorem starMatch_iff (rest : Str → Bool) (s : Str) :
    starMatch rest s = true ↔ ∃ a b, s = a ++ b ∧ '/' ∉ a ∧ rest b = true := by
  induction s with
  | nil =>
    rw [starMatch]
    constructor
    · intro h; exact ⟨[], [], rfl, by simp, h⟩
    · rintro ⟨a, b, h, _, hr⟩
      obtain ⟨rfl, rfl⟩ := List.append_eq_nil_iff.1 h.symm
      exact hr
  | cons c s ih =>
    rw [starMatch, Bool.or_eq_true, Bool.and_eq_true, decide_eq_true_eq, ih]
    constructor
    · rintro (h | ⟨hc, a, b, rfl, ha, hr⟩)
      · exact ⟨[], c :: s, rfl, by simp, h⟩
      · refine ⟨c :: a, b, rfl, ?_, hr⟩
        rw [List.mem_cons]
        rintro (h | h)
        · exact hc h.symm
        · exact ha h
    · rintro ⟨a, b, h, ha, hr⟩
      cases a with
      | nil => left; rw [h]; exact hr
      | cons x a =>
        obtain ⟨rfl, rfl⟩ := List.cons.inj h
        rw [List.mem_cons, not_or] at ha
        exact .inr ⟨fun h => ha.1 h.symm, a, b, rfl, ha.2, hr⟩

theorem globMatch_star (ps s : Str) : globMatch ('*' :: ps) s = starMatch (globMatch ps) s := by
  rw [globMatch.eq_def]; exact if_pos rfl

theorem globMatch_char (p : Char) (hp : p ≠ '*') (ps s : Str) :
    globMatch (p :: ps) s = (match s with | [] => false | c :: s => decide (c = p) && globMatch ps s) := by
  rw [globMatch.eq_def]; exact if_neg hp

theorem globMatch_literal (ps : Str) : ∀ (lit s : Str), (∀ c ∈ lit, c ≠ '*') →
    (globMatch (lit ++ ps) s = true ↔ ∃ b, s = lit ++ b ∧ globMatch ps b = true) := by
  intro lit
  induction lit with
  | nil => intro s _; exact ⟨fun h => ⟨s, rfl, h⟩, fun ⟨b, hb, h⟩ => by rw [hb]; exact h⟩
  | cons p lit ih =>
    intro s h
    rw [List.cons_append, globMatch_char p (h p (List.mem_cons_self ..))]
    cases s with
    | nil => exact ⟨fun h => (by cases h), fun ⟨b, hb, _⟩ => (by cases hb)⟩
    | cons c s =>
      simp only
      rw [Bool.and_eq_true, decide_eq_true_eq, ih s (fun c hc => h c (List.mem_cons_of_mem _ hc))]
      constructor
      · rintro ⟨rfl, b, rfl, hb⟩; exact ⟨b, rfl, hb⟩
      · rintro ⟨b, hb, hg⟩
        obtain ⟨rfl, rfl⟩ := List.cons.inj hb
        exact ⟨rfl, b, rfl, hg⟩

theorem globMatch_around (lit s : Str) (h : ∀ c ∈ lit, c ≠ '*') (hs : '/' ∉ lit) :
    globMatch ('*' :: (lit ++ ['*'])) s = true ↔ '/' ∉ s ∧ ∃ a b, s = a ++ lit ++ b := by
  rw [globMatch_star, starMatch_iff]
  constructor
  · rintro ⟨a, r, rfl, ha, hr⟩
    obtain ⟨b, rfl, hb⟩ := (globMatch_literal _ _ _ h).1 hr
    rw [globMatch_star, starMatch_iff] at hb
    obtain ⟨b1, b2, rfl, hb1, hb2⟩ := hb
    have : b2 = [] := by simpa [globMatch] using hb2
    subst this
    refine ⟨?_, a, b1, by simp⟩
    simp only [List.append_nil, List.mem_append, not_or]
    exact ⟨ha, hs, hb1⟩
  · rintro ⟨hn, a, b, rfl⟩
    simp only [List.mem_append, not_or] at hn
    refine ⟨a, lit ++ b, by simp, hn.1.1, (globMatch_literal _ _ _ h).2 ⟨b, rfl, ?_⟩⟩
    rw [globMatch_star, starMatch_iff]
    exact ⟨b, [], by simp, hn.2, rfl⟩

/-- **C155.** The files a tool looks for are those with its name in front of `.tei.xml`, whatever stands before and behind. -/
theorem C155_files (t : CliTool) (name : Str) : globMatch t.filePattern name = true ↔ FileOf t name := by
  have hp : t.filePattern = '*' :: ((fileStem t ++ c!".tei.xml") ++ ['*']) := by cases t <;> rfl
  rw [hp]
  exact globMatch_around _ _ (by cases t <;> (simp only [fileStem]; decide)) (by cases t <;> (simp only [fileStem]; decide))

theorem joinPath_slash {base : Str} : ∃ dir, ∀ name : Str, name.head? ≠ some '/' → joinPath base name = base ++ (dir ++ name) ∧ ∀ c ∈ dir, c ≠ '*' := by
  by_cases hb : (base.isEmpty || endsWith ['/'] base) = true
  · refine ⟨[], fun name hn => ⟨?_, by simp⟩⟩
    unfold joinPath
    rw [if_neg, if_pos hb]
    · rfl
    · intro h
      obtain ⟨r, hr⟩ := startsWith_iff.1 h
      exact hn (by rw [← hr]; rfl)
  · refine ⟨['/'], fun name hn => ⟨?_, by decide⟩⟩
    unfold joinPath
    rw [if_neg, if_neg hb]
    · rfl
    · intro h
      obtain ⟨r, hr⟩ := startsWith_iff.1 h
      exact hn (by rw [← hr]; rfl)

theorem head?_of_noSlash {name : Str} (h : '/' ∉ name) : name.head? ≠ some '/' := by
  cases name with
  | nil => simp
  | cons c n =>
    intro hh
    exact h (by rw [Option.some.inj hh]; exact List.mem_cons_self ..)

/-- **C155.** With a directory in front of it, the pattern of a tool is matched by the paths of its files directly in this directory. -/
theorem C155_sources (t : CliTool) (base path : Str) (hb : ∀ c ∈ base, c ≠ '*') :
    globMatch (joinPath base t.filePattern) path = true ↔ ∃ name, FileOf t name ∧ path = joinPath base name := by
  obtain ⟨dir, hdir⟩ := joinPath_slash (base := base)
  have hpat := hdir t.filePattern (by cases t <;> (simp only [CliTool.filePattern]; decide))
  have hlit : ∀ c ∈ base ++ dir, c ≠ '*' := by
    intro c hc
    rcases List.mem_append.1 hc with h | h
    · exact hb c h
    · exact hpat.2 c h
  rw [hpat.1, ← List.append_assoc, globMatch_literal _ _ _ hlit]
  constructor
  · rintro ⟨name, rfl, h⟩
    have hf := (C155_files t name).1 h
    exact ⟨name, hf, by rw [(hdir name (head?_of_noSlash hf.1)).1, List.append_assoc]⟩
  · rintro ⟨name, hf, rfl⟩
    exact ⟨name, by rw [(hdir name (head?_of_noSlash hf.1)).1, List.append_assoc], (C155_files t name).2 hf⟩

/-- **C155.** The source files of a run, if the files found are those which match: all files of the tool in the directory, or the first
of them if there is a limit. -/
theorem C155_run (t : CliTool) (find : Str → List Str) (files : List Str)
    (hfind : ∀ pattern path, path ∈ find pattern ↔ path ∈ files ∧ globMatch pattern path = true)
    (base : Str) (hb : ∀ c ∈ base, c ≠ '*') (limit : Option Nat) :
    ∃ sources, sourceFiles find ⟨none, some base, t.filePattern, limit⟩ = .ok sources ∧
      (∀ path ∈ sources, path ∈ files ∧ ∃ name, FileOf t name ∧ path = joinPath base name) ∧
      (limit = none → ∀ name, FileOf t name → joinPath base name ∈ files → joinPath base name ∈ sources) := by
  refine ⟨_, rfl, fun path hp => ?_, ?_⟩
  · have hmem : path ∈ find (joinPath base t.filePattern) := by
      cases limit with
      | none => exact hp
      | some n => exact List.mem_of_mem_take hp
    obtain ⟨h1, h2⟩ := (hfind _ _).1 hmem
    exact ⟨h1, (C155_sources t base path hb).1 h2⟩
  · rintro rfl name hf hm
    exact (hfind _ _).2 ⟨hm, (C155_sources t base _ hb).2 ⟨name, hf, rfl⟩⟩

/-- The stems of all tools. -/
def stemTable : List (Nat × Str) :=
  [(0, c!".header"), (1, c!".references.referenceSegmenter"), (2, c!".segmentation"), (3, c!".fulltext"), (4, c!".figure"),
   (5, c!".table"), (6, c!".references"), (7, c!".affiliation")]

theorem stemTable_mem (t : CliTool) : (toolKind t, fileStem t) ∈ stemTable := by
  cases t <;> (simp only [toolKind, fileStem]; decide)

theorem stemTable_apart : ∀ p ∈ stemTable, ∀ q ∈ stemTable, p.2.isSuffixOf q.2 = true → p.1 = q.1 := by decide +kernel

/-- **C155.** A file with only one `.tei.xml` in its name is a file of at most one tool. -/
theorem C155_apart (t t' : CliTool) (name : Str) (hone : InOnePlace c!".tei.xml" name)
    (h : globMatch t.filePattern name = true) (h' : globMatch t'.filePattern name = true) : toolKind t = toolKind t' := by
  obtain ⟨_, a, b, hn⟩ := (C155_files t name).1 h
  obtain ⟨_, a', b', hn'⟩ := (C155_files t' name).1 h'
  have he := hone (a ++ fileStem t) b (a' ++ fileStem t') b' (by rw [hn]; simp) (by rw [hn']; simp)
  rcases List.append_eq_append_iff.1 he with ⟨x, _, hx⟩ | ⟨x, _, hx⟩
  · exact (stemTable_apart _ (stemTable_mem t') _ (stemTable_mem t) (List.isSuffixOf_iff_suffix.2 ⟨x, hx.symm⟩)).symm
  · exact stemTable_apart _ (stemTable_mem t) _ (stemTable_mem t') (List.isSuffixOf_iff_suffix.2 ⟨x, hx.symm⟩)

/-- **C155.** So tools which write to the same directory do not overwrite each other's files. -/
theorem C155_outputs (t t' : CliTool) (out u u' : Str) (hkind : toolKind t ≠ toolKind t')
    (hone : InOnePlace c!".tei.xml" (baseName u))
    (h : globMatch t.filePattern (baseName u) = true) (h' : globMatch t'.filePattern (baseName u') = true) :
    annotatedOutput out u ≠ annotatedOutput out u' := by
  intro he
  have noSlash : ∀ p : Str, ¬ ['/'] <+: baseName p := by
    intro p hp
    obtain ⟨_, _, hb, _⟩ := baseName_decompose p
    obtain ⟨r, hr⟩ := hp
    exact hb (by rw [← hr]; exact List.mem_cons_self ..)
  have hb : baseName u = baseName u' := joinPath_inj (noSlash u) (noSlash u') he
  rw [← hb] at h'
  exact hkind (C155_apart t t' _ hone h h')

/-- **C155.** The file written for a source file is a file of the same tools: it can be the source file of another run. -/
theorem C155_written (t : CliTool) (out u : Str) : FileOf t (baseName (annotatedOutput out u)) ↔ FileOf t (baseName u) := by
  obtain ⟨_, _, hb, _⟩ := baseName_decompose u
  unfold annotatedOutput
  rw [baseName_joinPath out hb]

/-- **C155, disagreement.** A file with `.tei.xml` in two places of its name can be a file of two tools. -/
theorem C155_two_tools : ∃ name, globMatch CliTool.header.filePattern name = true ∧
    globMatch (CliTool.table true).filePattern name = true :=
  ⟨c!"a.header.tei.xml.table.tei.xml", by decide +kernel, by decide +kernel⟩

theorem inOnePlace_of {k s : Str} (h : ∀ i ∈ List.range (s.length + 1), ∀ j ∈ List.range (s.length + 1),
    (s.drop i).take k.length = k → (s.drop j).take k.length = k → i = j) : InOnePlace k s := by
  intro a b a' b' h1 h2
  have key : ∀ x y : Str, s = x ++ k ++ y → x.length ∈ List.range (s.length + 1) ∧ (s.drop x.length).take k.length = k := by
    intro x y e
    subst e
    refine ⟨List.mem_range.2 (by simp only [List.length_append]; omega), by simp⟩
  obtain ⟨k1, k2⟩ := key a b h1
  obtain ⟨k3, k4⟩ := key a' b' h2
  have hl := h _ k1 _ k3 k2 k4
  have := h1.symm.trans h2
  rw [List.append_assoc, List.append_assoc] at this
  exact (List.append_inj this hl).1

/-- Not vacuous: a compressed file of one tool, and one of the tools whose names begin in the same way. -/
example : InOnePlace c!".tei.xml" c!"a.references.tei.xml.gz" ∧
    globMatch (CliTool.reference true true true).filePattern c!"a.references.tei.xml.gz" = true ∧
    globMatch CliTool.referenceSegmenter.filePattern c!"a.references.tei.xml.gz" = false ∧
    globMatch CliTool.referenceSegmenter.filePattern c!"a.references.referenceSegmenter.tei.xml" = true ∧
    globMatch (CliTool.reference true true true).filePattern c!"a.references.referenceSegmenter.tei.xml" = false ∧
    globMatch (joinPath c!"in/" CliTool.header.filePattern) c!"in/a.header.tei.xml" = true ∧
    globMatch (joinPath c!"in" CliTool.header.filePattern) c!"in/x/a.header.tei.xml" = false :=
  ⟨inOnePlace_of (by decide +kernel), by decide +kernel⟩

example : sourceFiles (fun pattern => [c!"in/a.header.tei.xml", c!"in/a.table.tei.xml", c!"in/b.header.tei.xml.gz", c!"out/a.header.tei.xml"].filter
      (globMatch pattern)) ⟨none, some c!"in", CliTool.header.filePattern, none⟩ =
    .ok [c!"in/a.header.tei.xml", c!"in/b.header.tei.xml.gz"] := by rfl

end Verif
