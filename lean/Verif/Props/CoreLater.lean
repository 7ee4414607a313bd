/-
Property C87: values which are the text of a line, or of two lines, are annotated.
-/
import Verif.Lemmas.CoreLater
import Verif.Props.CoreMatching

namespace Verif

open Spec (newTag tokensIn matchTokens NoPartOn blocksOf untaggedLines compared untaggedRuns)

/-- Whatever is found on the first line with something of the value is annotated. -/
theorem later_target {env : CoreEnv} {cfg : CoreCfg} {before ts : List CoreTarget} {t : CoreTarget} {v : Str} {d d0 d' : Doc}
    (hn : ∀ t' ∈ before ++ t :: ts, t'.name ≠ []) (hs : ∀ t' ∈ before ++ t :: ts, ∀ s ∈ t'.subs, s.name ≠ [])
    (hv : t.value = .one v) (hreq : t.requireNext = false) (hbefore : ∀ t' ∈ before, t'.requireNext = false)
    (hbond : t.bonding = true → ∀ t' ∈ before, t'.bonding = true → t'.name ≠ t.name)
    (h0 : coreAnnotate env cfg before d = .ok d0) (h : coreAnnotate env cfg (before ++ t :: ts) d = .ok d')
    {pre : List (List Nat)} {line : List Nat} {post : List (List Nat)}
    (hlines : (untaggedLines d).flatMap (untaggedRuns d0) = pre ++ line :: post) (hne : compared env d line ≠ [])
    (hpre : ∀ a l l' b, pre ++ [line] = a ++ l :: l' :: b →
      compared env d l ≠ [] ∧ NoPartOn env (coreNormalise env v) (compared env d l) (compared env d l')) :
    ∃ (L : List CoreSeq) (c : CoreSeq), c.tokens = line ∧ L.map CoreSeq.tokens = post ∧
      ∀ cr, choiceStep env cfg false (coreNormalise env v) ⟨0, false, []⟩ c (compared env d line)
          (L.head?.map (fun n => (n, compared env d n.tokens))) = .ok cr →
        ∀ m ∈ cr.found, (m.seq.tokens = line ∨ ∃ next rest, post = next :: rest ∧ m.seq.tokens = next) →
          ∀ j ∈ tokensIn (fun i => coreNormalise env (d.getText env.cc i)) m.seq.tokens m.range2,
            ∃ first, d'.getTag j = newTag cfg.useBeginPrefix first t.name := by
  have htn := hn t (by simp)
  obtain ⟨L, hL, hLt, hLu⟩ := pairs_of_lines d d0
  rw [hlines] at hLt
  obtain ⟨A, B, rfl, hA, hB⟩ := List.map_eq_append_iff.1 hLt
  obtain ⟨c, B, rfl, hc, hB⟩ := List.map_eq_cons_iff.1 hB
  refine ⟨B, c, hc, hB, fun cr hcr m hm hmline j hj => ?_⟩
  -- the state after the earlier target annotations
  unfold coreAnnotate at h0 h
  simp only at h0 h
  rw [annotateTargets_append] at h
  split at h0
  · cases h0
  · cases h0
  · next st0 hst0 =>
    simp only [Except.ok.injEq] at h0
    rw [hst0] at h
    simp only at h
    obtain ⟨hcond, hmap⟩ := annotateTargets_quiet t.name before hbefore (st := ⟨d, none, []⟩) rfl hst0
    have hmarks := (annotateTargets_marks (P := fun _ => True) (T := before ++ t :: ts) hn hs (fun _ _ _ _ => trivial) before
      (fun x hx => List.mem_append_left _ hx) (st := ⟨d, none, []⟩) (fun _ _ h => by cases h) hst0).1
    rw [h0] at hmarks
    split at h
    · cases h
    · cases h
    · next st hst =>
      simp only [Except.ok.injEq] at h
      subst h
      unfold annotateTargets at hst
      simp only at hst
      have hm0 : (if t.bonding then (st0.matchedMap.getD t.name []) else []) = [] := by
        split
        · next hb =>
          have := hmap (hbond hb)
          unfold Dict.getD
          rw [this]
          rfl
        · rfl
      rw [hm0, hcond, h0] at hst
      split at hst
      · cases hst
      · simp at hst
      · next d1 cond1 matched1 hit =>
        have htext : coreSeqText env (coreNormalise env) d0 = coreSeqText env (coreNormalise env) d :=
          coreSeqText_sameBut hmarks.same
        have hct : ∀ s : CoreSeq, coreSeqText env (coreNormalise env) d s = compared env d s.tokens := fun _ => rfl
        -- the first round for the target annotation
        unfold annotateItems at hit
        rw [hv, TargetValue.map, hL, htext] at hit
        unfold findNext at hit
        simp only at hit
        split at hit
        · cases hit
        · next found matched' used hf =>
          split at hf
          · cases hf
          · next r hr =>
            simp only [Except.ok.injEq, Prod.mk.injEq] at hf
            obtain ⟨rfl, rfl, rfl⟩ := hf
            have hmf : m ∈ r.found := by
              refine findLoop_first (by rw [hct, hc]; exact hne) (by rw [hct, hc]; exact hcr) A ?_ hr m hm
              intro a l l' b he
              have := congrArg (List.map CoreSeq.tokens) he
              simp only [List.map_append, List.map_cons, List.map_nil, hA, hc] at this
              exact hpre _ _ _ _ this
            have hperm := sortBy_perm matchLe r.found
            rw [if_neg (by
              intro he
              have := hperm.mem_iff.2 hmf
              rw [List.isEmpty_iff.1 he] at this
              cases this)] at hit
            simp only [applyConditional, hreq, Bool.false_eq_true, if_false] at hit
            split at hit
            · cases hit
            · next d2 hd2 =>
              have hrest : Marks cfg (fun _ => True) (before ++ t :: ts) d2 st.doc := by
                have hT : t ∈ before ++ t :: ts := by simp
                have : Marks cfg (fun _ => True) (before ++ t :: ts) d2 d1 ∧ CondIn (fun _ => True) (before ++ t :: ts) cond1 := by
                  split at hit
                  · exact annotateItems_marks hT hn hs _ (fun _ _ h => by cases h) (fun _ _ _ _ => trivial) hit
                  · simp only [Except.ok.injEq, Option.some.injEq, Prod.mk.injEq] at hit
                    obtain ⟨rfl, rfl, rfl⟩ := hit
                    exact ⟨Marks.refl _ _ _ _, fun _ _ h => by cases h⟩
                exact this.1.trans hn (annotateTargets_marks hn hs (fun _ _ _ _ => trivial) ts
                  (fun x hx => by simp [hx]) this.2 hst).1
              obtain ⟨all, hap⟩ := applyMatches_applied htn (hs t (by simp)) _ (Applied.start cfg t d0) hd2
              have hgt : (fun i => coreNormalise env (d0.getText env.cc i)) = fun i => coreNormalise env (d.getText env.cc i) :=
                funext fun i => by rw [getText_sameBut hmarks.same]
              have hjseq : ∃ s ∈ A ++ c :: B, j ∈ s.tokens := by
                have hjm := (tokensIn_sublist _ _ _).mem hj
                rcases hmline with hml | ⟨next, rest, hp, hml⟩
                · exact ⟨c, by simp, by rw [hc, ← hml]; exact hjm⟩
                · rw [hp] at hB
                  obtain ⟨n, B', rfl, hn', _⟩ := List.map_eq_cons_iff.1 hB
                  exact ⟨n, by simp, by rw [hn', ← hml]; exact hjm⟩
              obtain ⟨s, hsL, hjs⟩ := hjseq
              have hmem : j ∈ all := by
                rw [hap.mem]
                refine ⟨?_, hLu s hsL j hjs⟩
                rw [List.nil_append]
                unfold matchTokens
                rw [hgt]
                exact List.mem_flatMap.2 ⟨m, hperm.mem_iff.2 hmf, hj⟩
              have htag := hap.tag j hmem
              refine ⟨_, Eq.trans ?_ htag⟩
              rcases hrest.each j with h3 | ⟨h3, _⟩
              · exact h3.1
              · rw [htag, truthy_newTag _ _ _ htn] at h3; cases h3

/-- If the normalised value of a target annotation is the text of a line, or of neighbouring tokens of a line which
are left untagged by the target annotations before; if the matcher finds it as a whole at the beginning of this text,
and finds nothing of it in the texts compared before, none of which is empty; and if no target annotation before
requires a next one: then all tokens of the line which have a text get the tag. -/
theorem C87_line (env : CoreEnv) (cfg : CoreCfg) (before ts : List CoreTarget) (t : CoreTarget) (v : Str) (d d0 d' : Doc)
    (hn : ∀ t' ∈ before ++ t :: ts, t'.name ≠ []) (hs : ∀ t' ∈ before ++ t :: ts, ∀ s ∈ t'.subs, s.name ≠ [])
    (hv : t.value = .one v) (hreq : t.requireNext = false) (hbefore : ∀ t' ∈ before, t'.requireNext = false)
    (hbond : t.bonding = true → ∀ t' ∈ before, t'.bonding = true → t'.name ≠ t.name)
    (h0 : coreAnnotate env cfg before d = .ok d0) (h : coreAnnotate env cfg (before ++ t :: ts) d = .ok d')
    (pre : List (List Nat)) (line : List Nat) (post : List (List Nat))
    (hlines : (untaggedLines d).flatMap (untaggedRuns d0) = pre ++ line :: post)
    (hne : coreNormalise env v ≠ []) (hline : compared env d line = coreNormalise env v)
    (hpre : ∀ a l l' b, pre ++ [line] = a ++ l :: l' :: b →
      compared env d l ≠ [] ∧ NoPartOn env (coreNormalise env v) (compared env d l) (compared env d l'))
    (hfound : (blocksOf env (coreNormalise env v) (match post with
        | [] => coreNormalise env v
        | next :: _ => coreNormalise env v ++ [' '] ++ compared env d next)).filter (fun x => x.size ≠ 0) =
      [⟨0, 0, (coreNormalise env v).length⟩])
    (h1 : cfg.seqFilter.bScore ≤ 1) (h2 : cfg.seqFilter.totalThreshold ≤ 1) :
    ∀ j ∈ line, coreNormalise env (d.getText env.cc j) ≠ [] →
      ∃ first, d'.getTag j = newTag cfg.useBeginPrefix first t.name := by
  intro j hj hjne
  obtain ⟨L, c, hc, hL, key⟩ := later_target hn hs hv hreq hbefore hbond h0 h hlines (by rw [hline]; exact hne) hpre
  have hb : (blocksOf env (coreNormalise env v) (choiceStr (coreNormalise env v)
      (L.head?.map (fun n => (n, compared env d n.tokens))))).filter (fun x => x.size ≠ 0) = [⟨0, 0, (coreNormalise env v).length⟩] := by
    cases L with
    | nil => rw [← hL] at hfound; exact hfound
    | cons n L => rw [← hL] at hfound; exact hfound
  have hstep := regularStep_exact (cfg := cfg) (st := ⟨0, false, []⟩) (choice := c) hne hb h1 h2
  refine key _ (by
    unfold choiceStep
    rw [hline, if_neg (by simp)]
    exact hstep) _ List.mem_cons_self (.inl hc) j ?_
  refine mem_tokensIn_from (by rw [hc]; exact hj) hjne ?_
  simp only [hc]
  rw [← hline]
  exact Nat.le_refl _

/-- The same for a value which is the text of two lines: all tokens of both lines get the tag. -/
theorem C87_two_lines (env : CoreEnv) (cfg : CoreCfg) (before ts : List CoreTarget) (t : CoreTarget) (v : Str) (d d0 d' : Doc)
    (hn : ∀ t' ∈ before ++ t :: ts, t'.name ≠ []) (hs : ∀ t' ∈ before ++ t :: ts, ∀ s ∈ t'.subs, s.name ≠ [])
    (hv : t.value = .one v) (hreq : t.requireNext = false) (hbefore : ∀ t' ∈ before, t'.requireNext = false)
    (hbond : t.bonding = true → ∀ t' ∈ before, t'.bonding = true → t'.name ≠ t.name)
    (h0 : coreAnnotate env cfg before d = .ok d0) (h : coreAnnotate env cfg (before ++ t :: ts) d = .ok d')
    (pre : List (List Nat)) (line next : List Nat) (post : List (List Nat))
    (hlines : (untaggedLines d).flatMap (untaggedRuns d0) = pre ++ line :: next :: post)
    (hne : compared env d line ≠ []) (hline : coreNormalise env v = compared env d line ++ [' '] ++ compared env d next)
    (hpre : ∀ a l l' b, pre ++ [line] = a ++ l :: l' :: b →
      compared env d l ≠ [] ∧ NoPartOn env (coreNormalise env v) (compared env d l) (compared env d l'))
    (hfound : (blocksOf env (coreNormalise env v) (coreNormalise env v)).filter (fun x => x.size ≠ 0) =
      [⟨0, 0, (coreNormalise env v).length⟩])
    (h1 : cfg.seqFilter.bScore ≤ 1) (h2 : cfg.seqFilter.totalThreshold ≤ 1) :
    ∀ j ∈ line ++ next, coreNormalise env (d.getText env.cc j) ≠ [] →
      ∃ first, d'.getTag j = newTag cfg.useBeginPrefix first t.name := by
  intro j hj hjne
  obtain ⟨L, c, hc, hL, key⟩ := later_target hn hs hv hreq hbefore hbond h0 h hlines hne hpre
  obtain ⟨n, L', rfl, hn', _⟩ := List.map_eq_cons_iff.1 hL
  rw [hline] at hfound
  obtain ⟨st', last, hstep⟩ := regularStep_two (cfg := cfg) (st := ⟨0, false, []⟩) (choice := c) (n := n) hne hfound h1 h2
  have hcs := key _ (by
    unfold choiceStep
    rw [hline, if_neg (by simp)]
    simp only [List.head?_cons, Option.map_some, hn']
    exact hstep)
  rcases List.mem_append.1 hj with hj | hj
  · refine hcs _ List.mem_cons_self (.inl hc) j (mem_tokensIn_from (by rw [hc]; exact hj) hjne ?_)
    simp only [hc]
    exact Nat.le_refl _
  · refine hcs _ (List.mem_cons_of_mem _ List.mem_cons_self) (.inr ⟨next, post, rfl, hn'⟩) j
      (mem_tokensIn_from (by rw [hn']; exact hj) hjne ?_)
    simp only [hn']
    exact Nat.le_add_left _ _

/-- With an earlier target annotation, whose line is not compared any more. -/
example : (∃ d0 : Doc, coreAnnotate coreExampleEnv {} [{ name := c!"doi", value := .one c!"other" }]
      (docOfWords [[c!"other"], [c!"abc"], [c!"some", c!"title"], [c!"more"]]) = .ok d0 ∧
    ((untaggedLines (docOfWords [[c!"other"], [c!"abc"], [c!"some", c!"title"], [c!"more"]])).flatMap (untaggedRuns d0) =
      [[1]] ++ [2, 3] :: [[4]])) ∧
    ∃ d' : Doc, coreAnnotate coreExampleEnv {}
        ([{ name := c!"doi", value := .one c!"other" }] ++ [{ name := c!"title", value := .one c!"some title" }])
        (docOfWords [[c!"other"], [c!"abc"], [c!"some", c!"title"], [c!"more"]]) = .ok d' ∧
      (docTags d' = [some c!"doi", none, some c!"title", some c!"title", none]) :=
  ⟨exists_of_okAnd (by decide +kernel), exists_of_okAnd (by decide +kernel)⟩

/-- On two lines. -/
example : ∃ d' : Doc, coreAnnotate coreExampleEnv {} [{ name := c!"title", value := .one c!"some other title" }]
      (docOfWords [[c!"abc"], [c!"some", c!"other"], [c!"title"], [c!"more"]]) = .ok d' ∧
    (docTags d' = [none, some c!"title", some c!"title", some c!"title", none]) := exists_of_okAnd (by decide +kernel)

example : untaggedLines (docOfWords [[c!"other"], [c!"some", c!"title"], [c!"more"]]) = [[0]] ++ [1, 2] :: [[3]] ∧
    compared coreExampleEnv (docOfWords [[c!"other"], [c!"some", c!"title"], [c!"more"]]) [1, 2] =
      coreNormalise coreExampleEnv c!"some title" ∧
    NoPartOn coreExampleEnv c!"some title" c!"other" c!"some title" ∧
    (blocksOf coreExampleEnv c!"some title" c!"some title more").filter (fun x => x.size ≠ 0) = [⟨0, 0, 10⟩] := by
  refine ⟨by decide +kernel, by decide +kernel, ?_, by decide +kernel⟩
  unfold NoPartOn
  rw [if_neg (by decide)]
  decide +kernel

example :
    let d := docOfWords [[c!"abc"], [c!"some", c!"other"], [c!"title"], [c!"more"]]
    coreNormalise coreExampleEnv c!"some other title" = compared coreExampleEnv d [1, 2] ++ [' '] ++ compared coreExampleEnv d [3] ∧
    NoPartOn coreExampleEnv c!"some other title" c!"abc" c!"some other" ∧
    (blocksOf coreExampleEnv c!"some other title" c!"some other title").filter (fun x => x.size ≠ 0) = [⟨0, 0, 16⟩] := by
  refine ⟨by decide +kernel, ?_, by decide +kernel⟩
  unfold NoPartOn
  rw [if_neg (by decide)]
  decide +kernel

/-- The search for a value on two lines goes on after it was found: parts of it are tagged on later lines too,
although it is to be found once. -/
theorem C87_found_again : ∃ d' : Doc, coreAnnotate coreExampleEnv {} [{ name := c!"title", value := .one c!"some other title" }]
      (docOfWords [[c!"some", c!"other"], [c!"title"], [c!"more"], [c!"other"], [c!"title"], [c!"more"]]) = .ok d' ∧
    (docTags d' = [some c!"title", some c!"title", some c!"title", none, some c!"title", some c!"title", none]) :=
  exists_of_okAnd (by decide +kernel)

end Verif
