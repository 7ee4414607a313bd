/-
C107: the target XML file belonging to a source file.
-/
import Verif.Lemmas.TargetFile
import Verif.Props.Download

namespace Verif
open Spec

/-- C107: a substitution `/match/replace/` (with any delimiter that does not occur in its parts)
replaces what matches; options behind the last delimiter have no effect. -/
theorem C107_pattern (reSub : Str → Str → Str → Except Err Str) (name : Str) (d : Char) (m r o : Str)
    (hm : d ∉ m) (hr : d ∉ r) (ho : d ∉ o) :
    regexChangeName reSub name (d :: (m ++ d :: (r ++ d :: o))) = reSub m r name := by
  have h : splitOn d (d :: (m ++ d :: (r ++ d :: o))) = [[], m, r, o] := by
    have := splitOn_append d [] (m ++ d :: (r ++ d :: o)) (by simp)
    rw [List.nil_append] at this
    rw [this, splitOn_append d m _ hm, splitOn_append d r _ hr, splitOn_of_not_mem d o ho]
  unfold regexChangeName parseSubstitution
  simp only [h]

/-- C107: anything else is refused, before any file is read. -/
theorem C107_pattern_refused (reSub : Str → Str → Str → Except Err Str) (xmlPath source pattern : Str)
    (h : ¬ ∃ d m r o, d ∉ m ∧ d ∉ r ∧ d ∉ o ∧ pattern = d :: (m ++ d :: (r ++ d :: o))) :
    targetXml reSub xmlPath pattern source = .error (if pattern = [] then .indexError else .valueError) := by
  have hp : parseSubstitution pattern = .error (if pattern = [] then .indexError else .valueError) := by
    unfold parseSubstitution
    cases pattern with
    | nil => rfl
    | cons d p =>
      rw [if_neg (by simp)]
      simp only
      split
      · next a m r o hs =>
        exfalso
        obtain ⟨h1, h2, h3, h4, h5⟩ := splitOn_four hs
        cases a with
        | nil => exact h ⟨d, m, r, o, h2, h3, h4, h5⟩
        | cons x a =>
          rw [List.cons_append, List.cons.injEq] at h5
          exact h1 (by rw [← h5.1]; exact List.mem_cons_self ..)
      · rfl
  unfold targetXml regexChangeName
  rw [hp]

/-- What is assumed of `re.sub`: it agrees with the model for the expressions in use. -/
def AgreesWithModel (reSub : Str → Str → Str → Except Err Str) : Prop :=
  ∀ m r s t, simpleReSub m r s = some t → reSub m r s = .ok t

theorem suffixPattern_sub {reSub : Str → Str → Str → Except Err Str} (hre : AgreesWithModel reSub) (suffix ext name : Str)
    (hs : PlainSuffix suffix) (he : PlainExt ext) :
    regexChangeName reSub name (suffixPattern suffix ext) = .ok (subSuffix (suffixItems suffix) ext name) := by
  have hm : '/' ∉ c!"(.*)" ++ suffix := by
    intro hc
    rcases List.mem_append.1 hc with hc | hc
    · revert hc; decide
    · exact hs.2 _ hc (by decide)
  have hr : '/' ∉ c!"\\1" ++ ext := by
    intro hc
    rcases List.mem_append.1 hc with hc | hc
    · revert hc; decide
    · exact (he.1 _ hc).2 rfl
  have : suffixPattern suffix ext = '/' :: ((c!"(.*)" ++ suffix) ++ '/' :: ((c!"\\1" ++ ext) ++ '/' :: [])) := by
    simp [suffixPattern]
  rw [this, C107_pattern reSub name '/' _ _ [] hm hr (by simp)]
  exact hre _ _ _ _ (simpleReSub_eq suffix ext name hs he)

/-- C107: the target of a file with the given suffix (and maybe something behind it) is the file
in the target directory with the suffix replaced and all else unchanged, provided the suffix does
not match further to the right. -/
theorem C107_target {reSub : Str → Str → Str → Except Err Str} (hre : AgreesWithModel reSub)
    (xmlPath dir base suffix ext tail : Str) (hs : PlainSuffix suffix) (he : PlainExt ext)
    (hb : InName base) (ht : InName tail)
    (hlast : ∀ k, 0 < k → ¬ StartsLike suffix ((suffix ++ tail).drop k)) :
    targetXml reSub xmlPath (suffixPattern suffix ext) (dir ++ '/' :: (base ++ (suffix ++ tail))) =
      .ok (joinPath xmlPath (base ++ ext ++ tail)) := by
  have hname : InName (base ++ (suffix ++ tail)) := by
    intro c hc
    rcases List.mem_append.1 hc with hc | hc
    · exact hb c hc
    · rcases List.mem_append.1 hc with hc | hc
      · have := hs.2 c hc
        simp only [List.mem_cons, not_or] at this
        exact ⟨this.2.2.2.2.2.2.2.2.2.2.2.2.2.1, this.2.2.2.2.2.2.2.2.2.2.2.2.2.2.1⟩
      · exact ht c hc
  unfold targetXml
  rw [baseName_of_dir _ _ (fun hc => (hname _ hc).1 rfl), suffixPattern_sub hre suffix ext _ hs he,
    subSuffix_eq suffix ext base tail hs.1 (fun c hc => (hname c hc).2) hlast]

/-- C107: for the tools: whatever the name, the target of `NAME.header.tei.xml` is `NAME.xml` and
that of `NAME.header.tei.xml.gz` is `NAME.xml.gz`, and likewise for the other tools. -/
theorem C107_tools {reSub : Str → Str → Str → Except Err Str} (hre : AgreesWithModel reSub)
    (xmlPath dir name suffix tail : Str) (hs : suffix ∈ toolSuffixes) (ht : tail = [] ∨ tail = c!".gz") (hn : InName name) :
    targetXml reSub xmlPath (suffixPattern suffix c!".xml") (dir ++ '/' :: (name ++ (suffix ++ tail))) =
      .ok (joinPath xmlPath (name ++ c!".xml" ++ tail)) := by
  have h1 : ∀ s ∈ toolSuffixes, s ≠ [] ∧ ∀ c ∈ s, c ∉ c!"\\^$*+?{}[]|()/\n" := by decide +kernel
  have h2 : ∀ s ∈ toolSuffixes, ∀ t ∈ [[], c!".gz"], ∀ k ∈ List.range 64, 0 < k →
      suffixAt (suffixItems s) ((s ++ t).drop k) = false := by decide +kernel
  have h3 : ∀ s ∈ toolSuffixes, ∀ t ∈ [[], c!".gz"], (s ++ t).length < 64 ∧ ∀ c ∈ s ++ t, c ≠ '\n' := by decide +kernel
  have ht' : tail ∈ [[], c!".gz"] := by
    rcases ht with rfl | rfl <;> simp
  refine C107_target hre xmlPath dir name suffix c!".xml" tail (h1 suffix hs) ⟨by decide, by decide⟩ hn ?_ ?_
  · rcases ht with rfl | rfl
    · intro c hc; cases hc
    · show ∀ c ∈ c!".gz", c ≠ '/' ∧ c ≠ '\n'
      decide
  · intro k hk hc
    obtain ⟨h4, h5⟩ := h3 suffix hs tail ht'
    by_cases hk' : k < 64
    · have := h2 suffix hs tail ht' k (List.mem_range.2 hk') hk
      rw [(suffixAt_iff suffix _ (fun c hc => h5 c (List.mem_of_mem_drop hc))).2 hc] at this
      cases this
    · have := hc.1
      rw [List.length_drop] at this
      exact (h1 suffix hs).1 (List.length_eq_zero_iff.1 (by omega))

/-- C107: different names have different targets. -/
theorem C107_different {reSub : Str → Str → Str → Except Err Str} (hre : AgreesWithModel reSub)
    (xmlPath dir dir' name name' suffix tail : Str) (hs : suffix ∈ toolSuffixes) (ht : tail = [] ∨ tail = c!".gz")
    (hn : InName name) (hn' : InName name')
    (h : targetXml reSub xmlPath (suffixPattern suffix c!".xml") (dir ++ '/' :: (name ++ (suffix ++ tail))) =
      targetXml reSub xmlPath (suffixPattern suffix c!".xml") (dir' ++ '/' :: (name' ++ (suffix ++ tail)))) :
    name = name' := by
  rw [C107_tools hre xmlPath dir name suffix tail hs ht hn, C107_tools hre xmlPath dir' name' suffix tail hs ht hn',
    Except.ok.injEq] at h
  have hp : ∀ n, InName n → ¬ ['/'] <+: n ++ c!".xml" ++ tail := by
    intro n hn hc
    cases n with
    | nil => obtain ⟨r, hr⟩ := hc; simp at hr
    | cons x n =>
      obtain ⟨r, hr⟩ := hc
      simp only [List.cons_append, List.nil_append, List.cons.injEq] at hr
      exact (hn x (List.mem_cons_self ..)).1 hr.1.symm
  have := joinPath_inj (hp name hn) (hp name' hn') h
  rw [List.append_assoc, List.append_assoc] at this
  exact List.append_cancel_right this

/-- C107: a file without the suffix has a target of the same name. -/
theorem C107_unmatched {reSub : Str → Str → Str → Except Err Str} (hre : AgreesWithModel reSub)
    (xmlPath dir name suffix ext : Str) (hs : PlainSuffix suffix) (he : PlainExt ext) (hn : InName name)
    (hno : ∀ k, ¬ StartsLike suffix (name.drop k)) :
    targetXml reSub xmlPath (suffixPattern suffix ext) (dir ++ '/' :: name) = .ok (joinPath xmlPath name) := by
  unfold targetXml
  rw [baseName_of_dir _ _ (fun hc => (hn _ hc).1 rfl), suffixPattern_sub hre suffix ext _ hs he,
    subSuffix_unmatched suffix ext name (fun c hc => (hn c hc).2) hno]

/-- C107: the fixed copy of a source file has the same target as the source file. -/
theorem C107_fixed_copy (reSub : Str → Str → Str → Except Err Str) (xmlPath pattern tempDir source : Str) :
    targetXml reSub xmlPath pattern (fixedCopy tempDir source) = targetXml reSub xmlPath pattern source := by
  obtain ⟨-, -, h, -⟩ := baseName_decompose source
  have hself : baseName (baseName source) = baseName source := baseName_plain h
  have hb : baseName (fixedCopy tempDir source) = baseName source := by
    unfold fixedCopy joinPath
    split
    · exact hself
    · split
      · next he =>
        rw [Bool.or_eq_true] at he
        rcases he with he | he
        · rw [List.isEmpty_iff.1 he, List.nil_append, hself]
        · obtain ⟨d, hd⟩ := List.isSuffixOf_iff_suffix.1 he
          rw [← hd, List.append_assoc, List.singleton_append, baseName_of_dir _ _ h]
      · exact baseName_of_dir _ _ h
  unfold targetXml
  rw [hb]

/-- The model itself as `re.sub`. -/
def modelReSub (m r s : Str) : Except Err Str :=
  match simpleReSub m r s with
  | some t => .ok t
  | none => .error .exception

example : AgreesWithModel modelReSub := by
  intro m r s t h
  unfold modelReSub
  rw [h]

example : targetXml modelReSub c!"/xml" c!"/(.*).header.tei.xml/\\1.xml/" c!"/in/a.b.header.tei.xml.gz" =
    .ok c!"/xml/a.b.xml.gz" := by decide +kernel

/-- Patterns as written for `sed` are not understood, but not refused either: the delimiter is
taken to be the `s`. -/
theorem C107_sed_pattern (reSub : Str → Str → Str → Except Err Str) (name : Str) :
    regexChangeName reSub name c!"s/as/bs/" = reSub c!"/a" c!"/b" name := rfl

end Verif
