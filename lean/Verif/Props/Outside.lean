/-
C148: the tools change nothing outside the container.
-/
import Verif.Spec.Outside
import Verif.Spec.ToolRun
import Verif.Props.Tools
import Verif.Props.CommandLine

namespace Verif
open Spec

/-- What `replaceChild` does. -/
theorem replaceChild_spec (t : Str) (rec : Elem → Option Elem) : ∀ (cs : List Elem),
    (replaceChild t rec cs = none → ∀ c ∈ cs, c.tag = t → rec c = none) ∧
    ∀ cs', replaceChild t rec cs = some cs' → ∃ i c c', cs[i]? = some c ∧ c.tag = t ∧ rec c = some c' ∧ cs' = cs.set i c' ∧
      ∀ j < i, ∀ b, cs[j]? = some b → b.tag = t → rec b = none := by
  intro cs
  induction cs with
  | nil =>
    refine ⟨fun _ c h => ?_, fun cs' h => ?_⟩
    · cases h
    · cases h
  | cons a cs ih =>
    have hrc : replaceChild t rec (a :: cs) = match (if a.tag = t then rec a else none) with
      | some c' => some (c' :: cs)
      | none => (replaceChild t rec cs).map (a :: ·) := rfl
    cases hg : (if a.tag = t then rec a else none) with
    | some a' =>
      rw [hrc, hg]
      refine ⟨fun h => (by cases h), fun cs' h => ?_⟩
      cases h
      split at hg
      · next ht => exact ⟨0, a, a', rfl, ht, hg, rfl, fun j hj => absurd hj (Nat.not_lt_zero j)⟩
      · cases hg
    | none =>
      have ha : a.tag = t → rec a = none := fun ht => by rw [if_pos ht] at hg; exact hg
      rw [hrc, hg]
      refine ⟨fun h c hc ht => ?_, fun cs' h => ?_⟩
      · rcases List.mem_cons.1 hc with rfl | hc
        · exact ha ht
        · exact ih.1 (Option.map_eq_none_iff.1 h) c hc ht
      · obtain ⟨ds, hds, rfl⟩ := Option.map_eq_some_iff.1 h
        obtain ⟨i, c, c', h1, h2, h3, h4, h5⟩ := ih.2 ds hds
        refine ⟨i + 1, c, c', by simpa using h1, h2, h3, by rw [h4]; rfl, fun j hj b hb ht => ?_⟩
        cases j with
        | zero => simp only [List.getElem?_cons_zero, Option.some.injEq] at hb; subst hb; exact ha ht
        | succ j => exact h5 j (by omega) b (by simpa using hb) ht

/-- Nothing is replaced if the path leads nowhere. -/
theorem replaceFirst_none_tagsTo (f : Elem → Elem) : ∀ (path : List Str) (e : Elem), replaceFirst f path e = none →
    ∀ q, tagsTo q e ≠ some path := by
  intro path
  induction path with
  | nil => intro e h; cases h
  | cons t ts ih =>
    intro e h q hq
    obtain ⟨tg, a, x, cs, tl⟩ := e
    have h' := (replaceChild_spec t (replaceFirst f ts) cs).1 (Option.map_eq_none_iff.1 h)
    cases q with
    | nil => cases hq
    | cons i q =>
      simp only [tagsTo, Elem.children] at hq
      obtain ⟨c, hc, hq⟩ := Option.bind_eq_some_iff.1 hq
      obtain ⟨ts', hts, hcons⟩ := Option.map_eq_some_iff.1 hq
      obtain ⟨h1, rfl⟩ := List.cons.inj hcons
      exact ih c (h' c (List.mem_of_getElem? hc) h1) q hts

/-- What `replaceFirst` does, by positions. -/
theorem replaceFirst_outside (f : Elem → Elem) : ∀ (path : List Str) (e e' : Elem), replaceFirst f path e = some e' →
    ∃ pos c, FirstAt path pos e ∧ elemAt pos e = some c ∧ elemAt pos e' = some (f c) ∧ SameOutside pos e e' ∧
      (path ≠ [] → SameHead e e') := by
  intro path
  induction path with
  | nil =>
    intro e e' h
    cases h
    refine ⟨[], e, ⟨rfl, fun q _ hq => ?_⟩, rfl, rfl, fun q hq => absurd (List.nil_prefix) hq, fun h => absurd rfl h⟩
    exact absurd hq (List.not_lt_nil q)
  | cons t ts ih =>
    intro e e' h
    obtain ⟨tg, a, x, cs, tl⟩ := e
    obtain ⟨cs', hcs, rfl⟩ := Option.map_eq_some_iff.1 h
    obtain ⟨i, c, c', h1, h2, h3, rfl, h5⟩ := (replaceChild_spec t (replaceFirst f ts) cs).2 cs' hcs
    obtain ⟨pos, d, hf, hd, hd', hs, hh⟩ := ih c c' h3
    have hi : i < cs.length := (List.getElem?_eq_some_iff.1 h1).1
    have hset : (cs.set i c')[i]? = some c' := by rw [List.getElem?_set_self hi]
    refine ⟨i :: pos, d, ⟨?_, ?_⟩, ?_, ?_, ?_, fun _ => ⟨rfl, rfl, rfl, rfl, by simp [Elem.children]⟩⟩
    · simp only [tagsTo, Elem.children, h1, Option.bind_some, hf.leads, Option.map_some, h2]
    · intro q hq hlt
      cases q with
      | nil => cases hq
      | cons j q =>
        simp only [tagsTo, Elem.children] at hq
        obtain ⟨b, hb, hq⟩ := Option.bind_eq_some_iff.1 hq
        obtain ⟨ts', hts, hcons⟩ := Option.map_eq_some_iff.1 hq
        obtain ⟨g1, rfl⟩ := List.cons.inj hcons
        rcases List.cons_lt_cons_iff.1 hlt with hji | ⟨rfl, hlt'⟩
        · exact replaceFirst_none_tagsTo f ts' b (h5 j hji b hb g1) q hts
        · rw [h1] at hb
          cases hb
          exact hf.first q hts hlt'
    · simp only [elemAt, Elem.children, h1, Option.bind_some, hd]
    · simp only [elemAt, Elem.children, hset, Option.bind_some, hd']
    · intro q hq
      cases q with
      | nil => exact .inr ⟨_, _, rfl, rfl, ⟨rfl, rfl, rfl, rfl, by simp [Elem.children]⟩⟩
      | cons j q =>
        simp only [elemAt, Elem.children]
        by_cases hj : j = i
        · subst hj
          rw [h1, hset]
          simp only [Option.bind_some]
          exact hs q (fun hp => hq ((List.prefix_cons_inj j).2 hp))
        · rw [List.getElem?_set_ne (Ne.symm hj)]
          cases hb : cs[j]? with
          | none => exact .inl ⟨rfl, rfl⟩
          | some b =>
            simp only [Option.bind_some]
            cases hbq : elemAt q b with
            | none => exact .inl ⟨rfl, rfl⟩
            | some y => exact .inr ⟨y, y, rfl, rfl, ⟨rfl, rfl, rfl, rfl, rfl⟩⟩

/-- The element at a position has the last tag on the way to it. -/
theorem tag_of_tagsTo : ∀ (pos : List Nat) (path : List Str) (e c : Elem), tagsTo pos e = some path → elemAt pos e = some c →
    c.tag = (e.tag :: path).getLast (List.cons_ne_nil _ _) := by
  intro pos
  induction pos with
  | nil => intro path e c h1 h2; cases h1; cases h2; rfl
  | cons i q ih =>
    intro path e c h1 h2
    obtain ⟨b, hb, hq⟩ := Option.bind_eq_some_iff.1 h1
    obtain ⟨ts, hts, rfl⟩ := Option.map_eq_some_iff.1 hq
    simp only [elemAt, hb, Option.bind_some] at h2
    rw [List.getLast_cons (List.cons_ne_nil _ _)]
    exact ih ts b c hts h2

theorem tag_of_findAll : ∀ (path : List Str) (e c : Elem), c ∈ findAll path e →
    c.tag = (e.tag :: path).getLast (List.cons_ne_nil _ _) := by
  intro path
  induction path with
  | nil => intro e c h; rw [List.mem_singleton.1 h]; rfl
  | cons t ts ih =>
    intro e c h
    obtain ⟨b, hb, hc⟩ := List.mem_flatMap.1 h
    have ht : b.tag = t := by simpa using (List.mem_filter.1 hb).2
    rw [List.getLast_cons (List.cons_ne_nil _ _), ← ht]
    exact ih b c hc

/-- Saving any document. -/
theorem docRoot_outside (cfg : DocCfg) (root root' : Elem) (d : Doc) (h : docRoot cfg root d = .ok root') :
    ∃ pos c c', FirstAt cfg.containerPath pos root ∧ elemAt pos root = some c ∧ elemAt pos root' = some c' ∧ c'.tag = c.tag ∧
      SameOutside pos root root' := by
  unfold docRoot updatedTei at h
  split at h
  · cases h
  next c rest hc =>
    split at h
    · cases h
    next f hf =>
      split at h
      · cases h
      next r hr =>
        obtain rfl := Except.ok.inj h
        obtain ⟨pos, c0, h1, h2, h3, h4, _⟩ := replaceFirst_outside _ _ _ _ hr
        refine ⟨pos, c0, f.close, h1, h2, h3, ?_, h4⟩
        rw [show f.close.tag = f.tag from rfl, (linesToTei_head _ _ _ _ hf).1, tag_of_tagsTo _ _ _ _ h1.leads h2]
        exact tag_of_findAll _ _ _ (by rw [hc]; exact List.mem_cons_self)

/-- **C148.** The file written by a tool is the document read with another content of the container, the first element
to which the container path leads: all other elements are there in the same places, with the same tags, attributes
and texts, and no others outside the container. The container keeps its tag (its lines are C95, its text C92; its
attributes and the text following it are not kept: `C95_attributes_lost`). -/
theorem C148_run (env : ToolEnv) (a : ToolArgs) (t : Tool) (cfg : DocCfg) (passes : Doc → Except Err Bool) (root root' : Elem)
    (target path : Str) (failed : Option Str) (h : t.run env a cfg passes root target failed = .ok (some (path, root'))) :
    ∃ pos c c', FirstAt cfg.containerPath pos root ∧ elemAt pos root = some c ∧ elemAt pos root' = some c' ∧ c'.tag = c.tag ∧
      SameOutside pos root root' := by
  obtain ⟨_, d', _, _, h2, _⟩ := run_steps h
  exact docRoot_outside cfg root root' d' h2

/-- From the source file to the file written, with any options. -/
theorem C148_file (renv : RunEnv) (o : RunOpts) (cfg : PipelineConfig) (fs : FileStore) (u p : Str) (x : Elem)
    (h : annotateFile renv o cfg fs u = .ok (some (p, x))) :
    ∃ root pos c c', SourceRoot renv o fs u root ∧ FirstAt o.doc.containerPath pos root ∧
      elemAt pos root = some c ∧ elemAt pos x = some c' ∧ c'.tag = c.tag ∧ SameOutside pos root x := by
  unfold annotateFile at h
  split at h
  · cases h
  next data hd =>
    split at h
    · cases h
    next final hf =>
      split at h
      · cases h
      split at h
      · cases h
      split at h
      · cases h
      next root hp =>
        obtain ⟨pos, c, c', hh⟩ := C148_run _ _ _ _ _ _ _ _ _ _ h
        exact ⟨root, pos, c, c', ⟨data, final, hd, hf, hp⟩, hh⟩

/-- A document with a header, attributes, texts between the elements and a second element on the container path. -/
def exOutsideRoot : Elem :=
  .mk c!"tei" [(c!"version", c!"1")] (some c!"\n")
    [.mk c!"teiHeader" [] none [.mk c!"fileDesc" [(c!"xml:id", c!"a")] none [] none] (some c!"\n"),
     .mk c!"other" [] (some c!"x") [] (some c!"y"),
     .mk c!"text" [] (some c!"on some title") [.mk c!"lb" [] none [] (some c!"by author")] none,
     .mk c!"text" [] none [] (some c!"z")] none

/-- Not vacuous: a title is annotated in the container, everything else is as before. -/
example : (match Tool.header.run exToolEnv { targets := exTargets } exToolCfg (fun _ => .ok true) exOutsideRoot c!"out" none with
    | .ok (some (_, x)) => some (exXml x)
    | _ => none) = some
      c!"<tei version=1>\n<teiHeader><fileDesc xml:id=a></fileDesc></teiHeader>\n<other>x</other>y<text><front><title>on some title<lb></lb></title></front>by author<lb></lb>z</text><text></text>z</tei>" ∧
    FirstAt exToolCfg.containerPath [2] exOutsideRoot := by
  refine ⟨by decide +kernel, ?_⟩
  refine ⟨rfl, fun q hq hlt => ?_⟩
  match q, hq, hlt with
  | 0 :: q, hq, _ => 
    simp only [tagsTo, exOutsideRoot, Elem.children, List.getElem?_cons_zero, Option.bind_some] at hq
    obtain ⟨_, _, h⟩ := Option.map_eq_some_iff.1 hq
    exact absurd (List.cons.inj h).1 (by decide)
  | 1 :: q, hq, _ =>
    simp only [tagsTo, exOutsideRoot, Elem.children, List.getElem?_cons_succ, List.getElem?_cons_zero, Option.bind_some] at hq
    obtain ⟨_, _, h⟩ := Option.map_eq_some_iff.1 hq
    exact absurd (List.cons.inj h).1 (by decide)
  | (n + 2) :: q, _, hlt =>
    rcases List.cons_lt_cons_iff.1 hlt with h | ⟨_, h⟩
    · omega
    · exact absurd h (List.not_lt_nil q)

end Verif
