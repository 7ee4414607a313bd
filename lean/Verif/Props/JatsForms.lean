/-
C114: the form of the identifiers of a repaired reference; C47, C80: the conditions on patterns hold for the patterns of the
code.
-/
import Verif.Props.JatsPatterns
import Verif.Props.JatsResult
import Verif.Props.JatsSucceeds
import Verif.Props.JatsRepairable

namespace Verif
open Spec

theorem search_ordered {cc : CharClass} {p : Pattern} {s : Str} {a b : Nat} (h : p.search cc s = some (a, b)) : a ≤ b ∧ b ≤ s.length := by
  obtain ⟨u, y, x, z, v, e, e1, e2, _⟩ := Pattern.search_fits h
  rw [e]
  simp only [List.length_append]
  omega

/-- The ranges found by the patterns of the code do not end before they start. -/
theorem jatsEnvOf_ordered (cc : CharClass) (isPunct : Char → Bool) (same : Char → Char → Bool) (lower : Str → Str) :
    SpansOrdered (jatsEnvOf cc isPunct same lower) where
  title _ _ _ h := (search_ordered h).1
  piiValid _ _ _ h := (search_ordered h).1
  piiOther _ _ _ h := (search_ordered h).1
  pmid _ _ _ h := (search_ordered h).1
  pmidFix _ _ _ h := (search_ordered h).1
  pmcid _ _ _ h := (search_ordered h).1
  wos _ _ _ h := (search_ordered h).1

/-- DOIs are cut off at white space or an opening parenthesis. -/
theorem jatsEnvOf_gap (cc : CharClass) (isPunct : Char → Bool) (same : Char → Char → Bool) (lower : Str → Str) :
    TruncatesAtGap (jatsEnvOf cc isPunct same lower).toJatsTextEnv := by
  intro s i h
  obtain ⟨u, g, t, v, hs, rfl, _⟩ := (C149_cut cc isPunct same lower s).2 i h
  refine ⟨g, ?_, hs.gap⟩
  rw [hs.text, List.append_assoc, List.getElem?_append_right (Nat.le_refl _), Nat.sub_self]
  rfl

/-- C47: with the patterns of the code, repairing a reference never adds or duplicates text, and keeps it if no step comes across
an element for which text is lost or moved. -/
theorem C47_patterns (cc : CharClass) (isPunct : Char → Bool) (same : Char → Char → Bool) (lower : Str → Str) (n n' : JNode)
    (h : fixReference (jatsEnvOf cc isPunct same lower) n = .ok n') :
    (∀ x, (jText n').count x ≤ (jText n).count x) ∧
      (safeRun (jatsEnvOf cc isPunct same lower) fixSteps n = true → jText n' = jText n) :=
  ⟨C47_no_text_added _ (jatsEnvOf_ordered cc isPunct same lower) n n' h,
    fun hs => C47_text_kept_partial _ (jatsEnvOf_ordered cc isPunct same lower) n n' hs h⟩

/-- C80: with the patterns of the code, a reference can be repaired unless a DOI annotation has no text or directly follows another one. -/
theorem C80_patterns (cc : CharClass) (hcc : DigitsPlain cc) (h10 : ∀ c ∈ c!"10.", cc.isSpace c = false) (isPunct : Char → Bool)
    (same : Char → Char → Bool) (lower : Str → Str) (hlow : ∀ k ∈ knownPubIdTypes, lower k = k) (n : JNode)
    (hid : ((jAll n).map (·.id)).Nodup) (h : DoisApart (jatsEnvOf cc isPunct same lower) n) :
    ∃ n', fixReference (jatsEnvOf cc isPunct same lower) n = .ok n' :=
  C80_succeeds _ hcc h10 (jatsEnvOf_gap cc isPunct same lower) hlow n hid h

/-- C114: in a repaired reference, DOIs start with `10.`, at least four digits or dots and a slash; PMIDs are numbers of 1 to 10
digits; PMCIDs are `PMC` and digits; PIIs have 16 digits or more after their first character. Missing: identifiers inside of identifiers
(`C114_nested_identifiers`). -/
theorem C114_forms_partial (cc : CharClass) (hcc : DigitsPlain cc) (h10 : ∀ c ∈ c!"10.", cc.isSpace c = false) (hw : WordClasses cc)
    (isPunct : Char → Bool) (same : Char → Char → Bool) (lower : Str → Str) (n n' : JNode) (hp : PlainReference n)
    (h : fixReference (jatsEnvOf cc isPunct same lower) n = .ok n') (T : Str) (hT : T ∈ [c!"doi", c!"pmid", c!"pmcid", c!"pii"])
    (e : JNode) (he : e ∈ jAlls n'.children) (htag : e.tag = c!"pub-id") (hty : e.attrs.get? c!"pub-id-type" = some T) :
    e.text = none ∨ ∃ x, e.text = some x ∧ IdForm cc same T x := by
  have hmid : ∀ (s u d v : Str) (a b : Nat), s = u ++ d ++ v → a = u.length → b = (u ++ d).length → sliceStr s a b = d := by
    intro s u d v a b h1 h2 h3
    rw [h1, h2, h3]
    show ((u ++ d ++ v).take (u ++ d).length).drop u.length = d
    rw [List.take_left, List.drop_left]
  rcases C114_identifiers_partial _ n n' hp h T hT e he htag hty with h1 | ⟨x, a, b, h1, h2⟩
  · exact .inl h1
  refine .inr ⟨_, h2, ?_⟩
  rcases h1 with ⟨rfl, h1⟩ | ⟨rfl, h1 | h1⟩ | ⟨rfl, h1⟩ | ⟨rfl, h1⟩
  · rcases findDoi_spec _ hcc h10 (jatsEnvOf_gap cc isPunct same lower) x with h3 | ⟨a', b', h3, _, _, h4, _⟩
    · rw [h1] at h3; cases h3
    · rw [h1] at h3; cases h3
      exact .inl ⟨rfl, h4⟩
  · obtain ⟨u, d, v, hn, e1, e2, _⟩ := (C149_number cc hw isPunct same lower x).2 a b h1
    rw [hmid x u d v a b hn.text e1 e2]
    exact .inr (.inl ⟨rfl, hn.number⟩)
  · obtain ⟨u, p, d, v, hn, e1, e2, _⟩ := (C149_pmid cc hw isPunct same lower x).2 a b h1
    rw [hmid x (u ++ p) d v a b hn.text e1 e2]
    exact .inr (.inl ⟨rfl, hn.number⟩)
  · obtain ⟨u, d, v, e0, hf, e1, e2, _⟩ := (C149_pmcid cc isPunct same lower x).2 a b h1
    rw [hmid x u d v a b e0 e1 e2]
    exact .inr (.inr (.inl ⟨rfl, hf⟩))
  · obtain ⟨u, d, v, e0, hf, _, e1, e2, _⟩ := (C149_pii cc isPunct same lower x).2 a b h1
    rw [hmid x u d v a b e0 e1 e2]
    exact .inr (.inr (.inr ⟨rfl, hf⟩))

/-- Non-vacuity of `C47_patterns`, `C80_patterns` and `C114_forms_partial`, with the patterns of the code. -/
example : let n := jRef (some c!"A. ") [
      jEl 2 c!"article-title" (some c!"“A ") [jEl 3 c!"italic" (some c!"b") [] (some c!" c”")] (some c!". "),
      jPubId 4 c!"DOI" (some c!"doi: 10.1234/a") [] (some c!" PMID: 123, "),
      jPubId 5 c!"pmcid" (some c!"PMC PMC42.") [] (some c!" and "),
      jPubId 6 c!"pii" (some c!"S0012-3456(01)00123-4") [] (some c!".")]
    PlainReference n ∧ DoisApart exPatterns n ∧ safeRun exPatterns fixSteps n = true ∧
    ∃ n', fixReference exPatterns n = .ok n' ∧
      ((jAlls n'.children).filter (fun e => e.tag = c!"pub-id")).map (fun e => (e.attrs.get? c!"pub-id-type", e.text)) =
        [(some c!"doi", some c!"10.1234/a"), (some c!"pmid", some c!"123"), (some c!"pmcid", some c!"PMC42"),
          (some c!"pii", some c!"S0012-3456(01)00123-4")] := by
  refine ⟨by decide +kernel, doisApart_of_check (by decide +kernel), by decide +kernel, exists_of_okAnd (by decide +kernel)⟩

/-- C138: with the patterns of the code, all files are repaired which can be read and in which no DOI annotation of a reference is without
text or directly follows another one. -/
theorem C138_patterns (cc : CharClass) (hcc : DigitsPlain cc) (h10 : ∀ c ∈ c!"10.", cc.isSpace c = false) (isPunct : Char → Bool)
    (same : Char → Char → Bool) (lower : Str → Str) (hlow : ∀ k ∈ knownPubIdTypes, lower k = k) (parse : Str → Except Nat JNode)
    (ser : JNode → Str) (write : Str → JNode → Str) (now : Str → Str) (file output : Str → Str) (jobs : List Str) (fs0 : FileStore)
    (hap : OutputsApart ⟨file, output, jatsProcess (jatsEnvOf cc isPunct same lower) parse ser write now⟩ jobs)
    (hfix : ∀ u ∈ jobs, ∃ data, fs0 (file u) = some data ∧ FixableFile (jatsEnvOf cc isPunct same lower) parse data) (c : JobsConfig)
    (hc : PoolReach ⟨file, output, jatsProcess (jatsEnvOf cc isPunct same lower) parse ser write now⟩ jobs fs0 c) (hcomp : c.complete)
    (order : List JobState) (ho : order.Perm c.states) :
    awaitResults order = .ok () ∧
    ∀ u ∈ jobs, ∃ data out, fs0 (file u) = some data ∧ c.fs (file (output u)) = some (write data out) ∧
      fixJatsFile (jatsEnvOf cc isPunct same lower) parse ser (now u) data = .ok out := by
  refine ⟨(C138_all_repaired _ hcc h10 (jatsEnvOf_gap cc isPunct same lower) hlow parse ser write now file output jobs fs0 hap hfix c hc hcomp
    order ho).1, fun u hu => ?_⟩
  obtain ⟨data, hd, hf⟩ := hfix u hu
  obtain ⟨out, hout⟩ := C138_file _ hcc h10 (jatsEnvOf_gap cc isPunct same lower) hlow parse ser (now u) data hf
  exact ⟨data, out, hd,
    (C103_repaired_partial _ parse ser write now file output jobs fs0 hap c hc hcomp u data hu hd).1 out hout, hout⟩

/-- C114 for a file: the identifiers in the references of the document written have their forms, for the references without identifiers inside
of identifiers. -/
theorem C114_file_partial (cc : CharClass) (hcc : DigitsPlain cc) (h10 : ∀ c ∈ c!"10.", cc.isSpace c = false) (hw : WordClasses cc)
    (isPunct : Char → Bool) (same : Char → Char → Bool) (lower : Str → Str) (parse : Str → Except Nat JNode) (ser : JNode → Str)
    (now data : Str) (out : JNode) (h : fixJatsFile (jatsEnvOf cc isPunct same lower) parse ser now data = .ok out) :
    ∃ root malformed fixed added, ReadAs parse data root malformed ∧ MetaAdded fixed out added ∧
      (refsOf fixed).length = (refsOf root).length ∧
      ∀ (k : Nat) (r r' : JNode), (refsOf root)[k]? = some r → (refsOf fixed)[k]? = some r' → PlainReference r →
        ∀ T ∈ [c!"doi", c!"pmid", c!"pmcid", c!"pii"], ∀ e ∈ jAlls r'.children, e.tag = c!"pub-id" →
          e.attrs.get? c!"pub-id-type" = some T → e.text = none ∨ ∃ x, e.text = some x ∧ IdForm cc same T x := by
  obtain ⟨root, m, fixed, changed, added, hr, _, hfix, _, hadd, _⟩ := C102_document _ _ _ _ _ _ h
  have hlen : (refsOf fixed).length = (refsOf root).length := by
    have := congrArg List.length hfix
    simpa using this.symm
  refine ⟨root, m, fixed, added, hr, hadd, hlen, fun k r r' hk hk' hp T hT e he htag hty => ?_⟩
  have hrr : fixReference (jatsEnvOf cc isPunct same lower) r = .ok r' := by
    have := congrArg (fun l => l[k]?) hfix
    simpa [List.getElem?_map, hk, hk'] using this
  exact C114_forms_partial cc hcc h10 hw isPunct same lower r r' hp hrr T hT e he htag hty

/-- Non-vacuity of `C114_file_partial` and `C138_patterns`: a file with two references, which are plain, can be repaired with the patterns of
the code. -/
example : (∃ out, fixJatsFile exPatterns (fun _ => .ok repairableRoot) (fun _ => []) c!"now" c!"<article/>" = .ok out) ∧
    ((refsOf repairableRoot).all (fun r => decide (PlainReference r))) = true ∧ (refsOf repairableRoot).length = 2 := by
  refine ⟨(C102_succeeds _ _ _ _ _).2 ⟨repairableRoot, false, .plain _ (by rw [parses_iff]), ?_⟩, by decide +kernel, by decide +kernel⟩
  have hall : (refsOf repairableRoot).all (fun r => match fixReference exPatterns r with | .ok _ => true | .error _ => false) = true := by
    decide +kernel
  intro r hr
  have h := List.all_eq_true.1 hall r hr
  cases hf : fixReference exPatterns r with
  | ok r' => exact ⟨r', rfl⟩
  | error e => rw [hf] at h; cases h

end Verif
