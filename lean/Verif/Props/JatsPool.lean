/-
C103: the tool repairing many JATS files.
-/
import Verif.Lemmas.JatsPool
import Verif.Props.JatsDoc
import Verif.Props.Pipeline

namespace Verif

open Spec

/-- C103 (part): whatever the order in which the workers make their steps, once all jobs have ended every file that can
be repaired was written completely, whatever happened to the others; no other file was changed; the run
reports an error if and only if a file could not be repaired. What is missing: outputs that are sources or are
the same file, see `C103_overwritten` and `C103_order_matters`. -/
theorem C103_outcome_partial (env : PoolEnv) (jobs : List Str) (fs0 : FileStore) (hap : OutputsApart env jobs) (c : JobsConfig)
    (hc : PoolReach env jobs fs0 c) (hcomp : c.complete) (order : List JobState) (ho : order.Perm c.states) :
    (∀ u ∈ jobs, c.fs (env.file (env.output u)) = finalOutput env fs0 u) ∧
      (∀ q, (∀ u ∈ jobs, q ≠ env.file (env.output u)) → c.fs q = fs0 q) ∧
      (awaitResults order = .ok () ↔ ∀ u ∈ jobs, ¬ Fails env fs0 u) := by
  have hj := poolInv_reach hap hc
  have hget : ∀ u ∈ jobs, ∃ (i : Nat) (st : JobState), jobs[i]? = some u ∧ c.states[i]? = some st ∧ PoolInv env fs0 c.fs u st := by
    intro u hu
    obtain ⟨i, hi⟩ := mem_index hu
    have hlt : i < c.states.length := by rw [hj.length]; exact (List.getElem?_eq_some_iff.mp hi).1
    exact ⟨i, _, hi, List.getElem?_eq_getElem hlt, hj.state i u _ hi (List.getElem?_eq_getElem hlt)⟩
  refine ⟨fun u hu => ?_, hj.other, ?_⟩
  · obtain ⟨i, st, -, h2, h3⟩ := hget u hu
    unfold finalOutput
    rcases hcomp st (List.mem_of_getElem? h2) with rfl | rfl
    · obtain ⟨d, h4, h5⟩ := h3
      rw [h4]; exact h5
    · obtain ⟨⟨e, h4⟩, h5⟩ := h3
      rw [h4]; exact h5
  · rw [awaitResults_eq]
    have : JobState.raised ∈ order ↔ ∃ u ∈ jobs, Fails env fs0 u := by
      rw [ho.mem_iff]
      constructor
      · intro hm
        obtain ⟨i, hi⟩ := mem_index hm
        have hlt : i < jobs.length := by rw [← hj.length]; exact (List.getElem?_eq_some_iff.mp hi).1
        exact ⟨_, List.getElem_mem hlt, (hj.state i _ _ (List.getElem?_eq_getElem hlt) hi).1⟩
      · rintro ⟨u, hu, e, he⟩
        obtain ⟨i, st, -, h2, h3⟩ := hget u hu
        rcases hcomp st (List.mem_of_getElem? h2) with rfl | rfl
        · obtain ⟨d, h4, _⟩ := h3
          rw [he] at h4; cases h4
        · exact List.mem_of_getElem? h2
    constructor
    · intro h u hu hf
      rw [if_pos (this.mpr ⟨u, hu, hf⟩)] at h
      cases h
    · intro h
      rw [if_neg]
      intro hm
      obtain ⟨u, hu, hf⟩ := this.mp hm
      exact h u hu hf

/-- C103: at any moment of a run, also if it is interrupted, a file is as before unless it is the output of a source with
another path. -/
theorem C103_untouched (env : PoolEnv) (jobs : List Str) (fs0 : FileStore) (c : JobsConfig) (hc : PoolReach env jobs fs0 c) (q : Str)
    (hq : ∀ u ∈ jobs, env.output u ≠ u → q ≠ env.file (env.output u)) : c.fs q = fs0 q :=
  (pool_untouched hc q hq).1

/-- C103: a run cannot get stuck. -/
theorem C103_progress (env : PoolEnv) (jobs : List Str) (fs0 : FileStore) (c : JobsConfig) (hc : PoolReach env jobs fs0 c) :
    c.complete ∨ ∃ (i : Nat) (u : Str) (st : JobState) (fs' : FileStore) (st' : JobState), jobs[i]? = some u ∧ c.states[i]? = some st ∧ PoolStep env u c.fs st fs' st' := by
  by_cases h : c.complete
  · exact .inl h
  · refine .inr (Classical.byContradiction fun hn => h ?_)
    intro st hst
    obtain ⟨i, hi⟩ := mem_index hst
    have hlt : i < jobs.length := by rw [← pool_length hc]; exact (List.getElem?_eq_some_iff.mp hi).1
    have hj : jobs[i]? = some jobs[i] := List.getElem?_eq_getElem hlt
    cases st with
    | pending => exact absurd ⟨_, _, _, _, _, hj, hi, .process⟩ hn
    | saving p d => exact absurd ⟨_, _, _, _, _, hj, hi, .create⟩ hn
    | writing p rest =>
      cases rest with
      | nil => exact absurd ⟨_, _, _, _, _, hj, hi, .close⟩ hn
      | cons x r => exact absurd ⟨_, _, .writing p ([x] ++ r), _, _, hj, hi, .write (by simp)⟩ hn
    | finished => exact .inl rfl
    | raised => exact .inr rfl

/-- C103: every run ends: there is no infinite sequence of steps. -/
theorem C103_terminates (env : PoolEnv) (jobs : List Str) :
    ¬ ∃ f : Nat → JobsConfig, ∀ n, ∃ (i : Nat) (u : Str) (st : JobState) (fs' : FileStore) (st' : JobState),
      jobs[i]? = some u ∧ (f n).states[i]? = some st ∧ PoolStep env u (f n).fs st fs' st' ∧
      f (n + 1) = ⟨fs', (f n).states.set i st'⟩ := by
  rintro ⟨f, hf⟩
  have hstep : ∀ n, Prod.Lex (· < ·) (· < ·) (f (n + 1)).measure (f n).measure := by
    intro n
    obtain ⟨i, u, st, fs', st', -, hst, hs, he⟩ := hf n
    rw [he]
    have h1 := sum_set (fun st => if st = JobState.pending then 1 else 0) st' hst
    have h2 := sum_set JobState.weight st' hst
    simp only [JobsConfig.measure]
    cases hs with
    | process =>
      refine .left _ _ ?_
      have : poolStart env u ((f n).fs (env.file u)) ≠ .pending := by
        unfold poolStart
        split
        · simp
        · split <;> simp
      rw [if_pos rfl, if_neg this] at h1
      omega
    | create =>
      simp only [reduceCtorEq, if_false, Nat.add_zero] at h1
      rw [h1]
      refine .right _ ?_
      simp only [JobState.weight] at h2
      omega
    | write hne =>
      simp only [reduceCtorEq, if_false, Nat.add_zero] at h1
      rw [h1]
      refine .right _ ?_
      have := List.length_pos_iff.mpr hne
      simp only [JobState.weight, List.length_append] at h2
      omega
    | close =>
      simp only [reduceCtorEq, if_false, Nat.add_zero] at h1
      rw [h1]
      refine .right _ ?_
      simp only [JobState.weight] at h2
      omega
  have hwf : WellFounded (Prod.Lex (· < ·) (· < ·) : Nat × Nat → Nat × Nat → Prop) :=
    (Prod.lex ⟨(· < ·), Nat.lt_wfRel.wf⟩ ⟨(· < ·), Nat.lt_wfRel.wf⟩).wf
  have : ∀ m : Nat × Nat, ∀ n, (f n).measure = m → False := by
    intro m
    induction m using hwf.induction with
    | _ m ih =>
      rintro n rfl
      exact ih _ (hstep n) (n + 1) rfl
  exact this _ 0 rfl

/-- C103: the outputs are below the output path as the sources are below their base path, so that files with the same name in
different directories do not get the same output; and the outputs are apart from the sources if no source is below the
output path. -/
theorem C103_outputs (rel : Str → Str → Str) (process : Str → Option Str → Except Err Str) (base outputPath : Str) (rels : List Str)
    (ho : outputPath ≠ []) (ho' : outputPath.getLast? ≠ some '/')
    (hr : ∀ r ∈ rels, r.head? ≠ some '/' ∧ rel base (base ++ '/' :: r) = r) (hd : rels.Nodup)
    (hn : ∀ r ∈ rels, ¬ (outputPath ++ ['/']) <+: (base ++ '/' :: r)) :
    (∀ r ∈ rels, jatsOutput rel outputPath base (base ++ '/' :: r) = outputPath ++ '/' :: r) ∧
      OutputsApart ⟨id, jatsOutput rel outputPath base, process⟩ (rels.map (fun r => base ++ '/' :: r)) := by
  have h1 : ∀ r ∈ rels, jatsOutput rel outputPath base (base ++ '/' :: r) = outputPath ++ '/' :: r := by
    intro r hm
    unfold jatsOutput
    rw [(hr r hm).2, joinPath_plain _ _ ho ho' (hr r hm).1]
  refine ⟨h1, ?_, ?_⟩
  · intro u hu v hv
    obtain ⟨r, hrm, rfl⟩ := List.mem_map.mp hu
    obtain ⟨s, hsm, rfl⟩ := List.mem_map.mp hv
    simp only [id, h1 r hrm]
    intro he
    exact hn s hsm ⟨r, by rw [← he]; simp⟩
  · rw [List.pairwise_map]
    refine List.Pairwise.imp_of_mem ?_ hd
    intro r s hrm hsm hne he
    simp only [id, h1 r hrm, h1 s hsm] at he
    have := List.append_cancel_left he
    simp only [List.cons.injEq, true_and] at this
    exact hne this

/-- C103: which directory the outputs mirror. -/
theorem C103_base (dirName : Str → Str) (opt : JatsOptions) :
    (∀ b, opt.sourceBasePath = some b → b ≠ [] → jatsBasePath dirName opt = .ok b) ∧
    (∀ l, opt.sourceBasePath = none → opt.sourceFileList = some l → l ≠ [] → dirName l ≠ [] →
      jatsBasePath dirName opt = .ok (dirName l)) ∧
    (∀ p, opt.sourceBasePath = none → opt.sourceFileList = none → opt.sourcePath = some p →
      jatsBasePath dirName opt = .ok (dirName p)) := by
  have hg : ∀ b : Str, b ≠ [] → givenPath (some b) = some b := by
    intro b hb
    cases b with
    | nil => exact absurd rfl hb
    | cons => rfl
  refine ⟨?_, ?_, ?_⟩
  · intro b h1 h2
    unfold jatsBasePath
    rw [h1, hg b h2]
  · intro l h1 h2 h3 h4
    unfold jatsBasePath
    rw [h1, h2, hg l h3]
    simp only [Option.map_some, hg _ h4]
    rfl
  · intro p h1 h2 h3
    unfold jatsBasePath
    rw [h1, h2, h3]
    rfl

/-- C103: which files are processed. -/
theorem C103_sources (load find : Str → List Str) (base : Str) (opt : JatsOptions) :
    jatsSourceFiles load find base opt =
      if opt.sourceFileList ≠ none ∧ opt.sourceFileList ≠ some [] then load (opt.sourceFileList.getD [])
      else if opt.sourcePath ≠ none ∧ opt.sourcePath ≠ some [] then [opt.sourcePath.getD []]
      else find (joinPath base opt.sourceFilenamePattern) := by
  unfold jatsSourceFiles
  have hp : ∀ p : Option Str, givenPath p = if p ≠ none ∧ p ≠ some [] then some (p.getD []) else none := by
    intro p
    match p with
    | none => rfl
    | some [] => rfl
    | some (c :: s) => simp [givenPath]
  rw [hp, hp]
  by_cases h1 : opt.sourceFileList ≠ none ∧ opt.sourceFileList ≠ some []
  · rw [if_pos h1, if_pos h1]
  · rw [if_neg h1, if_neg h1]
    by_cases h2 : opt.sourcePath ≠ none ∧ opt.sourcePath ≠ some []
    · rw [if_pos h2, if_pos h2]
    · rw [if_neg h2, if_neg h2]

/-! ### Examples and violations -/

/-- A path below a base path. -/
def exampleRel (base path : Str) : Str := if startsWith (base ++ ['/']) path then path.drop (base.length + 1) else path

/-- Repairing marks the data; files without data cannot be repaired. -/
def exampleMark (_ : Str) (data : Option Str) : Except Err Str :=
  match data with
  | some d => if d = [] then .error .valueError else .ok (d ++ c!"!")
  | none => .error .exception

/-- Sources below `d`, outputs below `o`. -/
def poolExample : PoolEnv := ⟨id, jatsOutput exampleRel c!"o" c!"d", exampleMark⟩

/-- Three sources; the second one cannot be repaired. -/
def poolExampleFiles : FileStore := fun p =>
  if p = c!"d/x/a" then some c!"1" else if p = c!"d/e" then some [] else if p = c!"d/y/a" then some c!"2" else none

theorem poolExample_apart : OutputsApart poolExample [c!"d/x/a", c!"d/e", c!"d/y/a"] :=
  (C103_outputs exampleRel exampleMark c!"d" c!"o" [c!"x/a", c!"e", c!"y/a"] (by decide) (by decide)
    (by decide) (by decide) (by decide)).2

/-- Not vacuous: a complete run, in which the second file fails and the two others have the same name. -/
example : ∃ c, PoolReach poolExample [c!"d/x/a", c!"d/e", c!"d/y/a"] poolExampleFiles c ∧ c.complete ∧
    c.fs c!"o/x/a" = some c!"1!" ∧ c.fs c!"o/e" = none ∧ c.fs c!"o/y/a" = some c!"2!" ∧
    awaitResults c.states = .error .runtimeError := by
  have h0 : PoolReach poolExample [c!"d/x/a", c!"d/e", c!"d/y/a"] poolExampleFiles _ := .start
  have h1 := pool_raise h0 (i := 1) (u := c!"d/e") rfl rfl rfl
  have h2 := pool_one h1 (i := 2) (u := c!"d/y/a") (p := c!"o/y/a") (d := c!"2!") rfl rfl rfl
  have h3 := pool_one h2 (i := 0) (u := c!"d/x/a") (p := c!"o/x/a") (d := c!"1!") rfl rfl rfl
  refine ⟨_, h3, ?_, by decide, by decide, by decide, by decide⟩
  intro st hst
  have : st ∈ [JobState.finished, .raised, .finished] := hst
  simp only [List.mem_cons, List.not_mem_nil, or_false] at this
  rcases this with h | h | h <;> simp [h]

/-- Paths starting with `./` refer to the same file as without. -/
def exampleFile (p : Str) : Str := if startsWith c!"./" p then p.drop 2 else p

/-- C103 is violated: the source is overwritten by its output, as the paths are written differently. -/
theorem C103_overwritten : ∃ c,
    PoolReach ⟨exampleFile, jatsOutput exampleRel c!"d" c!"./d", exampleMark⟩ [c!"./d/a"] (fun p => if p = c!"d/a" then some c!"1" else none) c ∧
    c.complete ∧ awaitResults c.states = .ok () ∧ c.fs c!"d/a" = some c!"1!" := by
  have h0 : PoolReach ⟨exampleFile, jatsOutput exampleRel c!"d" c!"./d", exampleMark⟩ [c!"./d/a"]
    (fun p => if p = c!"d/a" then some c!"1" else none) _ := .start
  have h1 := pool_one h0 (i := 0) (u := c!"./d/a") (p := c!"d/a") (d := c!"1!") rfl rfl rfl
  refine ⟨_, h1, ?_, by decide, by decide⟩
  intro st hst
  have : st ∈ [JobState.finished] := hst
  exact .inl (List.mem_singleton.mp this)

/-- C103 is violated: with the output path inside of the base path, the second run finds the outputs of the first one, and
what is written depends on the order of the jobs. -/
theorem C103_order_matters : ∃ (env : PoolEnv) (fs0 : FileStore) (c c' : JobsConfig),
    env = ⟨id, jatsOutput exampleRel c!"d/o" c!"d", exampleMark⟩ ∧ fs0 c!"d/a" = some c!"1" ∧ fs0 c!"d/o/a" = some c!"0" ∧
    PoolReach env [c!"d/a", c!"d/o/a"] fs0 c ∧ PoolReach env [c!"d/a", c!"d/o/a"] fs0 c' ∧ c.complete ∧ c'.complete ∧
    c.fs c!"d/o/o/a" = some c!"1!!" ∧ c'.fs c!"d/o/o/a" = some c!"0!" := by
  let env : PoolEnv := ⟨id, jatsOutput exampleRel c!"d/o" c!"d", exampleMark⟩
  let fs0 : FileStore := fun p => if p = c!"d/a" then some c!"1" else if p = c!"d/o/a" then some c!"0" else none
  have h0 : PoolReach env [c!"d/a", c!"d/o/a"] fs0 _ := .start
  have a1 := pool_one h0 (i := 0) (u := c!"d/a") (p := c!"d/o/a") (d := c!"1!") rfl rfl rfl
  have a2 := pool_one a1 (i := 1) (u := c!"d/o/a") (p := c!"d/o/o/a") (d := c!"1!!") rfl rfl rfl
  have b1 := pool_one h0 (i := 1) (u := c!"d/o/a") (p := c!"d/o/o/a") (d := c!"0!") rfl rfl rfl
  have b2 := pool_one b1 (i := 0) (u := c!"d/a") (p := c!"d/o/a") (d := c!"1!") rfl rfl rfl
  have hf : ∀ st ∈ [JobState.finished, .finished], st = .finished ∨ st = .raised := by
    intro st hst
    simp only [List.mem_cons, List.not_mem_nil, or_false, or_self] at hst
    exact .inl hst
  exact ⟨env, fs0, _, _, rfl, by decide, by decide, a2, b2, fun st h => hf st h, fun st h => hf st h, by decide, by decide⟩

/-- C103 is violated: a list of files in the current directory without a base path is not accepted. -/
theorem C103_bare_list_fails : jatsBasePath (fun p => if p = c!"list.tsv" then [] else p)
    ⟨none, none, some c!"list.tsv", c!"**.xml*", c!"out"⟩ = .error .typeError := rfl

/-- With the repair of JATS files: the output of a file that can be repaired is the repaired document. -/
theorem C103_repaired_partial (jenv : JatsEnv) (parse : Str → Except Nat JNode) (ser : JNode → Str) (write : Str → JNode → Str)
    (now : Str → Str) (file output : Str → Str) (jobs : List Str) (fs0 : FileStore)
    (hap : OutputsApart ⟨file, output, jatsProcess jenv parse ser write now⟩ jobs) (c : JobsConfig)
    (hc : PoolReach ⟨file, output, jatsProcess jenv parse ser write now⟩ jobs fs0 c) (hcomp : c.complete) (u data : Str)
    (hu : u ∈ jobs) (hd : fs0 (file u) = some data) :
    (∀ out, fixJatsFile jenv parse ser (now u) data = .ok out → c.fs (file (output u)) = some (write data out)) ∧
      (∀ e, fixJatsFile jenv parse ser (now u) data = .error e → c.fs (file (output u)) = fs0 (file (output u))) := by
  have h := (C103_outcome_partial _ jobs fs0 hap c hc hcomp c.states (List.Perm.refl _)).1 u hu
  constructor
  · intro out ho
    rw [h]
    simp only [finalOutput, jatsProcess, hd, ho]
  · intro e he
    rw [h]
    simp only [finalOutput, jatsProcess, hd, he]

end Verif
