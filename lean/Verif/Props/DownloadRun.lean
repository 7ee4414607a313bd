/-
C147: downloading all files.
-/
import Verif.Model.DownloadRun
import Verif.Spec.DownloadRun
import Verif.Props.Download

namespace Verif

open Spec

theorem DownloadSteps.trans {plan : CopyPlan} {s s' s'' : DownloadState} (h : DownloadSteps plan s s') (h' : DownloadSteps plan s' s'') :
    DownloadSteps plan s s'' := by
  induction h' with
  | refl => exact h
  | step _ hs ih => exact ih.step hs

/-- What holds in each state that can be reached. -/
inductive DownloadInv (plan : CopyPlan) (fs0 : FileStore) : DownloadState → Prop
  | documents {c : CopyConfig} : CopyInv plan.documents fs0 c → DownloadInv plan fs0 (.documents c)
  | targets {fs1 : FileStore} {c : CopyConfig} : (∀ q, (∀ j ∈ plan.documents, j.2 ≠ q) → fs1 q = fs0 q) →
      (∀ j ∈ plan.documents, fs1 j.2 = fs0 j.1) → CopyInv plan.targets fs1 c → DownloadInv plan fs0 (.targets c)

theorem copyInv_start (jobs : List (Str × Str)) (fs0 : FileStore) : CopyInv jobs fs0 ⟨fs0, jobs.map (fun _ => .todo)⟩ := by
  refine ⟨by simp, fun _ _ => rfl, fun i src out st _ hst => ?_⟩
  rw [List.getElem?_map] at hst
  cases hj : jobs[i]? with
  | none => rw [hj] at hst; cases hst
  | some x => rw [hj] at hst; cases hst; rfl

theorem copyInv_done {jobs : List (Str × Str)} {fs0 : FileStore} {c : CopyConfig} (hi : CopyInv jobs fs0 c)
    (hall : ∀ st ∈ c.states, st = .done) {i : Nat} {src out : Str} (hj : jobs[i]? = some (src, out)) : c.fs out = fs0 src := by
  have hk : i < c.states.length := by rw [hi.length]; exact (List.getElem?_eq_some_iff.1 hj).1
  have hst := List.getElem?_eq_getElem hk
  rw [hall _ (List.getElem_mem hk)] at hst
  exact (hi.state i src out .done hj hst).2

theorem Spec.CopiesApart.left {a b : List (Str × Str)} (h : CopiesApart (a ++ b)) : CopiesApart a := by
  refine ⟨?_, fun j hj k hk => h.noSource j (List.mem_append_left _ hj) k (List.mem_append_left _ hk)⟩
  have := h.different
  rw [List.map_append] at this
  exact (List.nodup_append.1 this).1

theorem Spec.CopiesApart.right {a b : List (Str × Str)} (h : CopiesApart (a ++ b)) : CopiesApart b := by
  refine ⟨?_, fun j hj k hk => h.noSource j (List.mem_append_right _ hj) k (List.mem_append_right _ hk)⟩
  have := h.different
  rw [List.map_append] at this
  exact (List.nodup_append.1 this).2.1

theorem downloadInv_step {plan : CopyPlan} {fs0 : FileStore} (ha : CopiesApart (plan.documents ++ plan.targets))
    {s s' : DownloadState} (hi : DownloadInv plan fs0 s) (h : DownloadStep plan s s') : DownloadInv plan fs0 s' := by
  cases h with
  | document h =>
    cases hi with
    | documents hi => exact .documents (copyInv_step ha.left.different ha.left.noSource hi h)
  | next hall =>
    cases hi with
    | documents hi =>
      refine .targets (fs1 := _) hi.other (fun j hj => ?_) (copyInv_start _ _)
      obtain ⟨i, hi', hj'⟩ := List.getElem_of_mem hj
      exact copyInv_done hi hall (by rw [List.getElem?_eq_getElem hi', hj'])
  | target h =>
    cases hi with
    | targets h1 h2 hi => exact .targets h1 h2 (copyInv_step ha.right.different ha.right.noSource hi h)

theorem downloadInv_reach {plan : CopyPlan} {fs0 : FileStore} (ha : CopiesApart (plan.documents ++ plan.targets))
    {s : DownloadState} (h : DownloadSteps plan (downloadStart plan fs0) s) : DownloadInv plan fs0 s := by
  induction h with
  | refl => exact .documents (copyInv_start _ _)
  | step _ hs ih => exact downloadInv_step ha ih hs

/-! ### Every run can be finished -/

/-- Any number of steps of the copies of one list. -/
inductive CopySteps (jobs : List (Str × Str)) : CopyConfig → CopyConfig → Prop
  | refl {c : CopyConfig} : CopySteps jobs c c
  | step {c c' c'' : CopyConfig} : CopySteps jobs c c' → CopyAllStep jobs c' c'' → CopySteps jobs c c''

theorem CopySteps.trans {jobs : List (Str × Str)} {s s' s'' : CopyConfig} (h : CopySteps jobs s s') (h' : CopySteps jobs s' s'') :
    CopySteps jobs s s'' := by
  induction h' with
  | refl => exact h
  | step _ hs ih => exact ih.step hs

theorem copyInv_steps {jobs : List (Str × Str)} {fs0 : FileStore} (ha : CopiesApart jobs) {c c' : CopyConfig}
    (hi : CopyInv jobs fs0 c) (h : CopySteps jobs c c') : CopyInv jobs fs0 c' := by
  induction h with
  | refl => exact hi
  | step _ hs ih => exact copyInv_step ha.different ha.noSource ih hs

/-- A copy which was begun can be finished, whatever the others do meanwhile. -/
theorem copy_finish {jobs : List (Str × Str)} {fs0 : FileStore} (ha : CopiesApart jobs) (hex : ∀ j ∈ jobs, fs0 j.1 ≠ none)
    {c : CopyConfig} (hi : CopyInv jobs fs0 c) (i : Nat) (hlt : i < jobs.length) :
    ∃ fs', CopySteps jobs c ⟨fs', c.states.set i .done⟩ := by
  have hls : i < c.states.length := by rw [hi.length]; exact hlt
  have hj : jobs[i]? = some (jobs[i].1, jobs[i].2) := List.getElem?_eq_getElem hlt
  have hst := List.getElem?_eq_getElem hls
  have hwrite : ∀ (fs : FileStore) (rest : Str), ∃ fs', CopySteps jobs ⟨fs, c.states.set i (.writing rest)⟩ ⟨fs', c.states.set i .done⟩ := by
    intro fs rest
    have h1 : CopyAllStep jobs ⟨fs, c.states.set i (.writing rest)⟩ ⟨_, (c.states.set i (.writing rest)).set i (.writing [])⟩ :=
      .step (st := .writing rest) hj (by simp [hls]) (by
        have := @CopyStep.write jobs[i].1 jobs[i].2 fs rest []
        rwa [List.append_nil] at this)
    rw [List.set_set] at h1
    have h2 := CopyAllStep.step (jobs := jobs) (c := ⟨_, c.states.set i (.writing [])⟩) (i := i) (st := .writing []) hj (by simp [hls])
      (CopyStep.close (fs := fs.put jobs[i].2 ((fs jobs[i].2).getD [] ++ rest)))
    rw [List.set_set] at h2
    exact ⟨_, (CopySteps.refl.step h1).step h2⟩
  have hopened : ∀ (fs : FileStore) (d : Str), ∃ fs', CopySteps jobs ⟨fs, c.states.set i (.opened d)⟩ ⟨fs', c.states.set i .done⟩ := by
    intro fs d
    have h1 := CopyAllStep.step (jobs := jobs) (c := ⟨fs, c.states.set i (.opened d)⟩) (i := i) (st := .opened d) hj (by simp [hls])
      (CopyStep.create)
    rw [List.set_set] at h1
    obtain ⟨fs', h2⟩ := hwrite (fs.put jobs[i].2 []) d
    exact ⟨fs', (CopySteps.refl.step h1).trans h2⟩
  have hsrc : c.fs jobs[i].1 = fs0 jobs[i].1 :=
    hi.other _ (fun j hjm he => ha.noSource _ (List.getElem_mem hlt) _ hjm he.symm)
  have hset : ∀ st fs', c.states[i] = st → CopySteps jobs ⟨c.fs, c.states.set i st⟩ ⟨fs', c.states.set i .done⟩ →
      CopySteps jobs c ⟨fs', c.states.set i .done⟩ := by
    intro st fs' he h
    rw [← he, List.set_getElem_self] at h
    exact h
  cases hs : c.states[i] with
  | todo =>
    cases hd : fs0 jobs[i].1 with
    | none => exact absurd hd (hex _ (List.getElem_mem hlt))
    | some d =>
      obtain ⟨fs', h2⟩ := hopened c.fs d
      have h1 := CopyAllStep.step (jobs := jobs) hj (hs ▸ hst) (CopyStep.openSource (hsrc.trans hd))
      exact ⟨fs', (CopySteps.refl.step h1).trans h2⟩
  | opened d =>
    obtain ⟨fs', h⟩ := hopened c.fs d
    exact ⟨fs', hset _ _ hs h⟩
  | writing rest =>
    obtain ⟨fs', h⟩ := hwrite c.fs rest
    exact ⟨fs', hset _ _ hs h⟩
  | done => exact ⟨c.fs, hset _ _ hs .refl⟩
  | failed =>
    have := hi.state i _ _ _ hj (hs ▸ hst)
    exact absurd this.1 (hex _ (List.getElem_mem hlt))

theorem copies_finish {jobs : List (Str × Str)} {fs0 : FileStore} (ha : CopiesApart jobs) (hex : ∀ j ∈ jobs, fs0 j.1 ≠ none)
    {c : CopyConfig} (hi : CopyInv jobs fs0 c) : ∃ c', CopySteps jobs c c' ∧ ∀ st ∈ c'.states, st = .done := by
  have key : ∀ n, n ≤ jobs.length → ∃ c', CopySteps jobs c c' ∧ ∀ k, k < n → c'.states[k]? = some .done := by
    intro n
    induction n with
    | zero => exact fun _ => ⟨c, .refl, fun k hk => absurd hk (Nat.not_lt_zero k)⟩
    | succ n ih =>
      intro hn
      obtain ⟨c1, h1, hd1⟩ := ih (by omega)
      have hi1 := copyInv_steps ha hi h1
      obtain ⟨fs', h2⟩ := copy_finish ha hex hi1 n (by omega)
      refine ⟨_, h1.trans h2, fun k hk => ?_⟩
      show (c1.states.set n .done)[k]? = _
      rw [List.getElem?_set]
      by_cases e : n = k
      · rw [if_pos e, if_pos (by rw [hi1.length]; omega)]
      · rw [if_neg e]; exact hd1 k (by omega)
  obtain ⟨c', h, hd⟩ := key jobs.length (Nat.le_refl _)
  refine ⟨c', h, fun st hst => ?_⟩
  obtain ⟨k, hk, hks⟩ := List.getElem_of_mem hst
  have := hd k (by rw [← (copyInv_steps ha hi h).length]; exact hk)
  rw [List.getElem?_eq_getElem hk, hks] at this
  exact Option.some.inj this

theorem documents_steps {plan : CopyPlan} {c c' : CopyConfig} (h : CopySteps plan.documents c c') :
    DownloadSteps plan (.documents c) (.documents c') := by
  induction h with
  | refl => exact .refl
  | step _ hs ih => exact ih.step (.document hs)

theorem targets_steps {plan : CopyPlan} {c c' : CopyConfig} (h : CopySteps plan.targets c c') :
    DownloadSteps plan (.targets c) (.targets c') := by
  induction h with
  | refl => exact .refl
  | step _ hs ih => exact ih.step (.target hs)

theorem download_finish {plan : CopyPlan} {fs0 : FileStore} (ha : CopiesApart (plan.documents ++ plan.targets))
    (hex : ∀ j ∈ plan.documents ++ plan.targets, fs0 j.1 ≠ none) {s : DownloadState} (hi : DownloadInv plan fs0 s) :
    ∃ s', DownloadSteps plan s s' ∧ s'.finished := by
  have htargets : ∀ c, DownloadInv plan fs0 (.targets c) → ∃ s', DownloadSteps plan (.targets c) s' ∧ s'.finished := by
    intro c hi
    cases hi with
    | targets h1 h2 hi =>
      obtain ⟨c', h, hd⟩ := copies_finish ha.right (fun j hj => by
        rw [h1 j.1 (fun k hk he => ha.noSource j (List.mem_append_right _ hj) k (List.mem_append_left _ hk) he.symm)]
        exact hex j (List.mem_append_right _ hj)) hi
      exact ⟨_, targets_steps h, hd⟩
  cases s with
  | targets c => exact htargets c hi
  | documents c =>
    have hi0 := hi
    cases hi with
    | documents hi =>
      obtain ⟨c', h, hd⟩ := copies_finish ha.left (fun j hj => hex j (List.mem_append_left _ hj)) hi
      have h1 := (documents_steps h).step (.next hd)
      obtain ⟨s', h2, hf⟩ := htargets _ (downloadInv_step ha (.documents (copyInv_steps ha.left hi h)) (.next hd))
      exact ⟨s', h1.trans h2, hf⟩

/-! ### C147 -/

/-- **C147.** Whatever the order in which the threads make their steps: no copy fails, no file other than the outputs is ever changed, the run can
always be finished, and when it is finished the outputs of each pair of which both files exist have the contents of these files. Their names are
made from the patterns, the place of the pair among those which exist, and the names of its files. Outputs must be different files and no sources. -/
theorem C147_run (env : FilesEnv) (docBase targetBase : Option Str) (documents targets : List Str) (docPath targetPath : Str)
    (docPattern targetPattern : List PatternPart) (plan : CopyPlan) (h1 : AbsStable env docBase) (h2 : AbsStable env targetBase)
    (h : downloadPlan env docBase targetBase documents targets docPath targetPath docPattern targetPattern = .ok plan)
    (fs0 : FileStore) (hfs : ∀ p, env.fileExists p = (fs0 p).isSome) (ha : CopiesApart (plan.documents ++ plan.targets))
    (s : DownloadState) (hs : DownloadSteps plan (downloadStart plan fs0) s) :
    (∀ st ∈ s.copies, st ≠ .failed) ∧
    (∀ q, (∀ j ∈ plan.documents ++ plan.targets, j.2 ≠ q) → s.files q = fs0 q) ∧
    (∃ s', DownloadSteps plan s s' ∧ s'.finished) ∧
    (s.finished → ∀ (i : Nat) (doc target : Str), (existingPairs env docBase targetBase documents targets)[i]? = some (doc, target) →
      ∃ docOut targetOut, OutputOf env docBase targetBase docPath docPattern i (relOf env docBase doc) doc target docOut ∧
        OutputOf env docBase targetBase targetPath targetPattern i (relOf env targetBase target) doc target targetOut ∧
        s.files docOut = fs0 doc ∧ s.files targetOut = fs0 target) := by
  obtain ⟨_, _, hlen, hpairs⟩ := C51_pairs env docBase targetBase documents targets docPath targetPath docPattern targetPattern plan h1 h2 h
  change _ = existingPairs env docBase targetBase documents targets at hpairs
  have hi := downloadInv_reach ha hs
  have hboth : ∀ (i : Nat) (hd : i < plan.documents.length) (ht : i < plan.targets.length),
      fs0 plan.documents[i].1 ≠ none ∧ fs0 plan.targets[i].1 ≠ none := by
    intro i hd ht
    have hm : (plan.documents[i].1, plan.targets[i].1) ∈ existingPairs env docBase targetBase documents targets := by
      rw [← hpairs]
      refine List.mem_of_getElem? (i := i) ?_
      rw [List.getElem?_zip_eq_some]
      exact ⟨by rw [List.getElem?_map, List.getElem?_eq_getElem hd]; rfl, by rw [List.getElem?_map, List.getElem?_eq_getElem ht]; rfl⟩
    have := (List.mem_filter.1 hm).2
    rw [Bool.and_eq_true, hfs, hfs] at this
    exact ⟨fun e => (by rw [e] at this; exact absurd this.1 (by decide)), fun e => (by rw [e] at this; exact absurd this.2 (by decide))⟩
  have hex : ∀ j ∈ plan.documents ++ plan.targets, fs0 j.1 ≠ none := by
    intro j hj
    rcases List.mem_append.1 hj with hj | hj
    · obtain ⟨i, hi, rfl⟩ := List.getElem_of_mem hj
      exact (hboth i hi (hlen ▸ hi)).1
    · obtain ⟨i, hi, rfl⟩ := List.getElem_of_mem hj
      exact (hboth i (hlen.symm ▸ hi) hi).2
  refine ⟨?_, ?_, download_finish ha hex hi, ?_⟩
  · have key : ∀ (jobs : List (Str × Str)) (fs : FileStore) (c : CopyConfig), CopyInv jobs fs c → (∀ j ∈ jobs, fs j.1 ≠ none) →
        ∀ st ∈ c.states, st ≠ .failed := by
      intro jobs fs c hi hex st hst e
      obtain ⟨k, hk, hks⟩ := List.getElem_of_mem hst
      have hkj : k < jobs.length := by rw [← hi.length]; exact hk
      have := hi.state k jobs[k].1 jobs[k].2 .failed (List.getElem?_eq_getElem hkj) (by rw [List.getElem?_eq_getElem hk, hks, e])
      exact hex _ (List.getElem_mem hkj) this.1
    cases hi with
    | documents hi => exact key _ _ _ hi (fun j hj => hex j (List.mem_append_left _ hj))
    | targets h1 h2 hi =>
      refine key _ _ _ hi (fun j hj => ?_)
      rw [h1 j.1 (fun k hk he => ha.noSource j (List.mem_append_right _ hj) k (List.mem_append_left _ hk) he.symm)]
      exact hex j (List.mem_append_right _ hj)
  · intro q hq
    cases hi with
    | documents hi => exact hi.other q (fun j hj => hq j (List.mem_append_left _ hj))
    | targets h1 h2 hi =>
      exact (hi.other q (fun j hj => hq j (List.mem_append_right _ hj))).trans (h1 q (fun j hj => hq j (List.mem_append_left _ hj)))
  · intro hfin i doc target hget
    rw [← hpairs, List.getElem?_zip_eq_some, List.getElem?_map, List.getElem?_map] at hget
    obtain ⟨hgd, hgt⟩ := hget
    cases hd : plan.documents[i]? with
    | none => rw [hd] at hgd; cases hgd
    | some x =>
      cases ht : plan.targets[i]? with
      | none => rw [ht] at hgt; cases hgt
      | some y =>
        rw [hd] at hgd
        rw [ht] at hgt
        obtain rfl := Option.some.inj hgd
        obtain rfl := Option.some.inj hgt
        obtain ⟨o1, o2⟩ := C51_outputs env docBase targetBase documents targets docPath targetPath docPattern targetPattern plan h1 h2 h
          i x.1 x.2 y.1 y.2 hd ht
        refine ⟨x.2, y.2, o1, o2, ?_⟩
        have hxm := List.mem_of_getElem? hd
        have hym := List.mem_of_getElem? ht
        cases hi with
        | documents hi => cases hfin
        | targets h1 h2 hi =>
          constructor
          · refine (hi.other x.2 (fun j hj he => ?_)).trans (h2 x hxm)
            have := ha.different
            rw [List.map_append] at this
            exact (List.nodup_append.1 this).2.2 x.2 (List.mem_map.2 ⟨x, hxm, rfl⟩) j.2 (List.mem_map.2 ⟨j, hj, rfl⟩) he.symm
          · refine (copyInv_done hi hfin ht).trans (h1 y.1 (fun j hj he => ?_))
            exact ha.noSource y (List.mem_append_right _ hym) j (List.mem_append_left _ hj) he.symm

/-- **C147.** Nothing is copied if the lists have different lengths or no pair exists: the run ends with an error before. -/
theorem C147_nothing (env : FilesEnv) (docBase targetBase : Option Str) (documents targets : List Str) (docPath targetPath : Str)
    (docPattern targetPattern : List PatternPart) (h1 : AbsStable env docBase) (h2 : AbsStable env targetBase) :
    (documents.length ≠ targets.length →
      downloadPlan env docBase targetBase documents targets docPath targetPath docPattern targetPattern = .error .assertionError) ∧
    (documents.length = targets.length → existingPairs env docBase targetBase documents targets = [] →
      downloadPlan env docBase targetBase documents targets docPath targetPath docPattern targetPattern = .error .valueError) := by
  constructor
  · intro hne
    unfold downloadPlan filterPairExists FileList.select
    rw [fileListInit_eq, fileListInit_eq]
    simp only [List.length_map, List.length_zip]
    by_cases hl : documents.length < targets.length
    · rw [if_neg (by omega)]
      simp only
      rw [if_pos (by omega)]
    · rw [if_pos (by omega)]
  · intro hl hnone
    obtain ⟨⟨docs, tgts⟩, hf⟩ := filterPairExists_ok env docBase targetBase documents targets hl
    obtain ⟨_, e2, e3, _, _⟩ := filterPairExists_spec env _ _ _ _ _ _ h1 h2 hf
    unfold downloadPlan
    rw [hf]
    simp only
    change _ = existingPairs env docBase targetBase documents targets at e3
    rw [hnone] at e3
    have : docs.abs = [] := by
      cases hd : docs.abs with
      | nil => rfl
      | cons x xs =>
        cases ht : tgts.abs with
        | nil => rw [hd, ht] at e2; cases e2
        | cons y ys => rw [hd, ht] at e3; cases e3
    rw [if_pos (by rw [this]; rfl)]

theorem joinPath_dir_inj {p q a b : Str} (hp : p ≠ []) (hq : q ≠ []) (hp' : ¬ ['/'] <:+ p) (hq' : ¬ ['/'] <:+ q) (ha : '/' ∉ a) (hb : '/' ∉ b)
    (h : joinPath p a = joinPath q b) : p = q ∧ a = b := by
  have key : ∀ p a : Str, p ≠ [] → ¬ ['/'] <:+ p → '/' ∉ a → joinPath p a = p ++ '/' :: a := by
    intro p a hp hp' ha
    unfold joinPath
    have h1 : startsWith ['/'] a = false := by
      cases a with
      | nil => rfl
      | cons c a =>
        refine Bool.eq_false_iff.2 (fun hc => ha ?_)
        simp [startsWith] at hc
        exact hc ▸ List.mem_cons_self
    have h2 : endsWith ['/'] p = false := Bool.eq_false_iff.2 (fun hc => hp' (by simpa [endsWith] using hc))
    rw [if_neg (by rw [h1]; decide), if_neg (by
      rw [h2]
      cases p with
      | nil => exact absurd rfl hp
      | cons c p => simp)]
  rw [key p a hp hp' ha, key q b hq hq' hb] at h
  have h3 := congrArg baseName h
  have e1 : baseName (p ++ '/' :: a) = a := baseName_of_dir p a ha
  have e2 : baseName (q ++ '/' :: b) = b := baseName_of_dir q b hb
  rw [e1, e2] at h3
  subst h3
  exact ⟨List.append_cancel_right h, rfl⟩

theorem slash_notMem_baseName (p : Str) : '/' ∉ baseName p := by
  obtain ⟨_, _, h, _⟩ := baseName_decompose p
  exact h

theorem outputOf_filename {env : FilesEnv} {docBase targetBase : Option Str} {path : Str} {i : Nat} {own doc target out : Str}
    (hpath : OutputAbs env path) (h : OutputOf env docBase targetBase path [.field .filename] i own doc target out) :
    out = joinPath path (baseName own) := by
  obtain ⟨name, h1, h2⟩ := h
  simp only [formatParts, formatPart, NameProps.get, namePropsOf, List.append_nil] at h1
  injection h1 with h1
  rw [h2, hpath, ← h1]

/-- **C147**, without patterns on the command line: files are copied to the output directories under their own names. If the names of the documents
are different, the names of the targets too, the output directories are different and no source is in one of them, then when the run is finished each
pair of which both files exist is there. -/
theorem C147_default (env : FilesEnv) (docBase targetBase : Option Str) (documents targets : List Str) (docPath targetPath : Str)
    (plan : CopyPlan) (h1 : AbsStable env docBase) (h2 : AbsStable env targetBase)
    (h : downloadPlan env docBase targetBase documents targets docPath targetPath [.field .filename] [.field .filename] = .ok plan)
    (hp1 : OutputAbs env docPath) (hp2 : OutputAbs env targetPath)
    (hdir1 : docPath ≠ [] ∧ ¬ ['/'] <:+ docPath) (hdir2 : targetPath ≠ [] ∧ ¬ ['/'] <:+ targetPath) (hdir : docPath ≠ targetPath)
    (hn1 : ((existingPairs env docBase targetBase documents targets).map (fun p => baseName (relOf env docBase p.1))).Nodup)
    (hn2 : ((existingPairs env docBase targetBase documents targets).map (fun p => baseName (relOf env targetBase p.2))).Nodup)
    (hsrc : ∀ p ∈ existingPairs env docBase targetBase documents targets, ∀ x, '/' ∉ x →
      p.1 ≠ joinPath docPath x ∧ p.1 ≠ joinPath targetPath x ∧ p.2 ≠ joinPath docPath x ∧ p.2 ≠ joinPath targetPath x)
    (fs0 : FileStore) (hfs : ∀ p, env.fileExists p = (fs0 p).isSome)
    (s : DownloadState) (hs : DownloadSteps plan (downloadStart plan fs0) s) :
    (∃ s', DownloadSteps plan s s' ∧ s'.finished) ∧
    (∀ p ∈ existingPairs env docBase targetBase documents targets, s.files p.1 = fs0 p.1 ∧ s.files p.2 = fs0 p.2) ∧
    (s.finished → ∀ p ∈ existingPairs env docBase targetBase documents targets,
      s.files (joinPath docPath (baseName (relOf env docBase p.1))) = fs0 p.1 ∧
      s.files (joinPath targetPath (baseName (relOf env targetBase p.2))) = fs0 p.2) := by
  obtain ⟨_, _, hlen, hpairs⟩ := C51_pairs env docBase targetBase documents targets docPath targetPath _ _ plan h1 h2 h
  change _ = existingPairs env docBase targetBase documents targets at hpairs
  have hout : ∀ (i : Nat) (hd : i < plan.documents.length) (ht : i < plan.targets.length),
      plan.documents[i].2 = joinPath docPath (baseName (relOf env docBase plan.documents[i].1)) ∧
      plan.targets[i].2 = joinPath targetPath (baseName (relOf env targetBase plan.targets[i].1)) := by
    intro i hd ht
    obtain ⟨o1, o2⟩ := C51_outputs env docBase targetBase documents targets docPath targetPath _ _ plan h1 h2 h i _ _ _ _
      (List.getElem?_eq_getElem hd) (List.getElem?_eq_getElem ht)
    exact ⟨outputOf_filename hp1 o1, outputOf_filename hp2 o2⟩
  have hfst : (existingPairs env docBase targetBase documents targets).map (·.1) = plan.documents.map (·.1) := by
    rw [← hpairs]
    exact List.map_fst_zip (by simp [hlen])
  have hsnd : (existingPairs env docBase targetBase documents targets).map (·.2) = plan.targets.map (·.1) := by
    rw [← hpairs]
    exact List.map_snd_zip (by simp [hlen])
  have hd2 : ∀ j ∈ plan.documents, j.2 = joinPath docPath (baseName (relOf env docBase j.1)) ∧
      ∃ p ∈ existingPairs env docBase targetBase documents targets, p.1 = j.1 := by
    intro j hj
    obtain ⟨i, hi, rfl⟩ := List.getElem_of_mem hj
    refine ⟨(hout i hi (hlen ▸ hi)).1, ?_⟩
    have : plan.documents[i].1 ∈ (existingPairs env docBase targetBase documents targets).map (·.1) := by
      rw [hfst]; exact List.mem_map.2 ⟨_, hj, rfl⟩
    obtain ⟨p, hp, he⟩ := List.mem_map.1 this
    exact ⟨p, hp, he⟩
  have ht2 : ∀ j ∈ plan.targets, j.2 = joinPath targetPath (baseName (relOf env targetBase j.1)) ∧
      ∃ p ∈ existingPairs env docBase targetBase documents targets, p.2 = j.1 := by
    intro j hj
    obtain ⟨i, hi, rfl⟩ := List.getElem_of_mem hj
    refine ⟨(hout i (hlen.symm ▸ hi) hi).2, ?_⟩
    have : plan.targets[i].1 ∈ (existingPairs env docBase targetBase documents targets).map (·.2) := by
      rw [hsnd]; exact List.mem_map.2 ⟨_, hj, rfl⟩
    obtain ⟨p, hp, he⟩ := List.mem_map.1 this
    exact ⟨p, hp, he⟩
  have hmap : ∀ (path : Str) (base : Option Str) (names : List Str), path ≠ [] ∧ ¬ ['/'] <:+ path →
      (names.map (fun f => baseName (relOf env base f))).Nodup → (names.map (fun f => joinPath path (baseName (relOf env base f)))).Nodup := by
    intro path base names hp hn
    unfold List.Nodup at hn ⊢
    rw [List.pairwise_map] at hn ⊢
    refine hn.imp (fun hne e => hne ?_)
    exact (joinPath_dir_inj hp.1 hp.1 hp.2 hp.2 (slash_notMem_baseName _) (slash_notMem_baseName _) e).2
  have ha : CopiesApart (plan.documents ++ plan.targets) := by
    constructor
    · rw [List.map_append, List.nodup_append]
      refine ⟨?_, ?_, ?_⟩
      · rw [List.map_congr_left (fun j hj => (hd2 j hj).1)]
        have := hmap docPath docBase (plan.documents.map (·.1)) hdir1 (by
          rw [← hfst, List.map_map]; exact hn1)
        rwa [List.map_map] at this
      · rw [List.map_congr_left (fun j hj => (ht2 j hj).1)]
        have := hmap targetPath targetBase (plan.targets.map (·.1)) hdir2 (by
          rw [← hsnd, List.map_map]; exact hn2)
        rwa [List.map_map] at this
      · intro a ha b hb e
        obtain ⟨j, hj, rfl⟩ := List.mem_map.1 ha
        obtain ⟨k, hk, rfl⟩ := List.mem_map.1 hb
        rw [(hd2 j hj).1, (ht2 k hk).1] at e
        exact hdir (joinPath_dir_inj hdir1.1 hdir2.1 hdir1.2 hdir2.2 (slash_notMem_baseName _) (slash_notMem_baseName _) e).1
    · intro j hj k hk e
      have hk2 : (∃ x, '/' ∉ x ∧ k.2 = joinPath docPath x) ∨ (∃ x, '/' ∉ x ∧ k.2 = joinPath targetPath x) := by
        rcases List.mem_append.1 hk with hk | hk
        · exact .inl ⟨_, slash_notMem_baseName _, (hd2 k hk).1⟩
        · exact .inr ⟨_, slash_notMem_baseName _, (ht2 k hk).1⟩
      rcases List.mem_append.1 hj with hj | hj
      · obtain ⟨p, hp, hpj⟩ := (hd2 j hj).2
        rcases hk2 with ⟨x, hx, hkx⟩ | ⟨x, hx, hkx⟩
        · exact (hsrc p hp x hx).1 (by rw [hpj, e, hkx])
        · exact (hsrc p hp x hx).2.1 (by rw [hpj, e, hkx])
      · obtain ⟨p, hp, hpj⟩ := (ht2 j hj).2
        rcases hk2 with ⟨x, hx, hkx⟩ | ⟨x, hx, hkx⟩
        · exact (hsrc p hp x hx).2.2.1 (by rw [hpj, e, hkx])
        · exact (hsrc p hp x hx).2.2.2 (by rw [hpj, e, hkx])
  obtain ⟨_, hother, hfin, hdone⟩ := C147_run env docBase targetBase documents targets docPath targetPath _ _ plan h1 h2 h fs0 hfs ha s hs
  refine ⟨hfin, fun p hp => ?_, fun hf p hp => ?_⟩
  · have hno : ∀ j ∈ plan.documents ++ plan.targets, j.2 ≠ p.1 ∧ j.2 ≠ p.2 := by
      intro j hj
      rcases List.mem_append.1 hj with hj | hj
      · have := hsrc p hp _ (slash_notMem_baseName (relOf env docBase j.1))
        rw [(hd2 j hj).1]
        exact ⟨fun e => this.1 e.symm, fun e => this.2.2.1 e.symm⟩
      · have := hsrc p hp _ (slash_notMem_baseName (relOf env targetBase j.1))
        rw [(ht2 j hj).1]
        exact ⟨fun e => this.2.1 e.symm, fun e => this.2.2.2 e.symm⟩
    exact ⟨hother p.1 (fun j hj => (hno j hj).1), hother p.2 (fun j hj => (hno j hj).2)⟩
  · obtain ⟨i, hi, rfl⟩ := List.getElem_of_mem hp
    obtain ⟨docOut, targetOut, o1, o2, e1, e2⟩ := hdone hf i _ _ (List.getElem?_eq_getElem hi)
    rw [outputOf_filename hp1 o1] at e1
    rw [outputOf_filename hp2 o2] at e2
    exact ⟨e1, e2⟩

/-- Two documents, one of them without a target. -/
def exDlFiles : FileStore := fun p =>
  if p = c!"/d/x/1.pdf" then some c!"one" else if p = c!"/d/x/2.pdf" then some c!"two" else if p = c!"/d/1.xml" then some c!"<a/>" else none

def exDlEnv : FilesEnv := { filesExampleEnv with fileExists := fun p => (exDlFiles p).isSome }

/-- Non-vacuity of C147: of the two pairs the first one is copied. -/
example : ∃ plan, downloadPlan exDlEnv (some c!"/d") (some c!"/d") [c!"x/1.pdf", c!"x/2.pdf"] [c!"1.xml", c!"2.xml"] c!"/o" c!"/p"
      [.field .filename] [.field .filename] = .ok plan ∧
    plan.documents = [(c!"/d/x/1.pdf", c!"/o/1.pdf")] ∧ plan.targets = [(c!"/d/1.xml", c!"/p/1.xml")] :=
  exists_of_okAnd (by decide +kernel)

example : AbsStable exDlEnv (some c!"/d") := filesExampleEnv_stable

example : existingPairs exDlEnv (some c!"/d") (some c!"/d") [c!"x/1.pdf", c!"x/2.pdf"] [c!"1.xml", c!"2.xml"] =
    [(c!"/d/x/1.pdf", c!"/d/1.xml")] := by decide +kernel

example : CopiesApart [(c!"/d/x/1.pdf", c!"/o/1.pdf"), (c!"/d/1.xml", c!"/p/1.xml")] := ⟨by decide +kernel, by decide +kernel⟩

example : ∀ x, '/' ∉ x → c!"/d/x/1.pdf" ≠ joinPath c!"/o" x := by
  intro x hx e
  have h1 : joinPath c!"/o" x = c!"/o/" ++ x := by
    unfold joinPath
    rw [if_neg (by
      cases x with
      | nil => decide
      | cons c x =>
        simp only [startsWith, List.isPrefixOf_cons_cons, Bool.and_eq_true, beq_iff_eq]
        exact fun h => hx (h.1 ▸ List.mem_cons_self))]
    rfl
  rw [h1] at e
  cases e

/-- The output directories of the example: paths in them are absolute already. -/
example : OutputAbs exDlEnv c!"/o" := by
  intro r
  show joinPath c!"/o" (joinPath c!"/o" r) = joinPath c!"/o" r
  by_cases h : startsWith ['/'] r = true
  · simp [joinPath, h]
  · have h1 : joinPath c!"/o" r = c!"/o/" ++ r := by
      unfold joinPath
      rw [if_neg h]
      rfl
    rw [h1]
    rfl

end Verif
