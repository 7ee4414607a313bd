/-
C26 (line numbers), C27 (entities), C28 (checks).
-/
import Verif.Lemmas.Checks
import Verif.Lemmas.LineNumber
import Verif.Props.TeiDoc

namespace Verif.Props
open Spec

/-! ## C26 Line numbers -/

theorem firstTokens_eq (d : Doc) : firstTokens d = lineStarts d := by
  unfold firstTokens lineStarts
  induction d.lines with
  | nil => rfl
  | cons l ls ih =>
    rw [List.filterMap_cons, List.flatMap_cons, ← ih]
    cases l.nonSpace <;> simp

/-- The tokens found to be line numbers. If there are any, then they are enough, they are enough of
the first tokens of the lines, and they come from sequences of first tokens of lines whose texts
are positive integers; each sequence is long enough, goes down the page, and its numbers
increase by at most the gap plus one. -/
theorem C26_found (cfg : LineNumberCfg) (d : Doc) (toks : List Nat) (h : findLineNumbers cfg d = .ok toks) :
    toks = [] ∨
    (cfg.minCount ≤ toks.length ∧
     cfg.threshold ≤ (toks.length : Rat) / ((lineStarts d).length : Rat) ∧
     ∃ seqs : List (List LnItem), toks = seqs.flatMap (fun s => s.map LnItem.token) ∧
       ∀ s ∈ seqs, cfg.minCount ≤ s.length ∧
         (∀ it ∈ s, (lineStarts d)[it.pos - 1]? = some it.token ∧
           cfg.parseInt (d.getText cfg.cc it.token) = some it.num ∧ 0 < it.num) ∧
         s.Pairwise (fun a b => a.pos < b.pos) ∧
         s.Pairwise (fun a b => a.num < b.num) ∧
         ∀ pre a b post, s = pre ++ a :: b :: post → b.num ≤ a.num + 1 + cfg.gap) := by
  rw [← firstTokens_eq]
  unfold findLineNumbers at h
  simp only at h
  split at h
  · left; exact (Except.ok.inj h).symm
  · next h1 =>
    split at h
    · cases h
    · split at h
      · left; exact (Except.ok.inj h).symm
      · next h3 =>
        have h := Except.ok.inj h
        right
        rw [h] at h1 h3
        refine ⟨by omega, Rat.not_lt.1 h3, ?_⟩
        unfold lineNumberCandidates at h
        split at h
        · exact ⟨[], h.symm, by simp⟩
        · next item items hsort =>
          refine ⟨_, h.symm, ?_⟩
          intro s hs
          rw [List.mem_filter, decide_eq_true_eq] at hs
          have hperm := sortBy_perm lnLe (lnItems cfg.parseInt (d.getText cfg.cc) 1 (firstTokens d))
          rw [hsort] at hperm
          have hpw := sortBy_pairwise lnLe lnLe_total lnLe_trans
            (lnItems cfg.parseInt (d.getText cfg.cc) 1 (firstTokens d))
          rw [hsort] at hpw
          have hpos : ∀ a ∈ lnItems cfg.parseInt (d.getText cfg.cc) 1 (firstTokens d),
              ∀ b ∈ lnItems cfg.parseInt (d.getText cfg.cc) 1 (firstTokens d), a.pos = b.pos → a = b := by
            intro a ha b hb hab
            have ea := lnItems_mem _ _ _ _ a ha
            have eb := lnItems_mem _ _ _ _ b hb
            have et : a.token = b.token := by
              have := ea.2.1
              rw [hab, eb.2.1] at this
              exact (Option.some.inj this).symm
            have en : a.num = b.num := by
              have := ea.2.2.1
              rw [et, eb.2.2.1] at this
              exact (Option.some.inj this).symm
            cases a; cases b
            simp only at et en hab
            subst et en hab
            rfl
          obtain ⟨g1, g2⟩ := lnSequences_spec cfg.gap items [] [] item _ hpw hpos
            (fun a ha => hperm.mem_iff.1 ha) (by simp) ⟨lnSeq_singleton _ _, by simp⟩ s hs.1
          refine ⟨hs.2, ?_, g1.pos, g1.num, g1.gap⟩
          intro it hit
          have := lnItems_mem _ _ _ _ it (g2 it hit)
          exact ⟨this.2.1, this.2.2.1, this.2.2.2⟩

/-- If the numbers at the beginning of lines are one increasing sequence within the gap, then all
of them are found, provided they are enough. -/
theorem C26_complete (cfg : LineNumberCfg) (d : Doc) (nums : List (Nat × Int))
    (hnums : nums = (lineStarts d).filterMap (positiveNumber cfg.parseInt (d.getText cfg.cc)))
    (hne : nums ≠ [])
    (hinc : nums.Pairwise (fun a b => a.2 < b.2))
    (hgap : ∀ pre a b post, nums = pre ++ a :: b :: post → b.2 ≤ a.2 + 1 + cfg.gap)
    (hmin : cfg.minCount ≤ nums.length)
    (hratio : cfg.threshold ≤ (nums.length : Rat) / ((lineStarts d).length : Rat)) :
    findLineNumbers cfg d = .ok (nums.map Prod.fst) := by
  rw [← firstTokens_eq] at hnums hratio
  have hmap := lnItems_tokens cfg.parseInt (d.getText cfg.cc) 1 (firstTokens d)
  rw [← hnums] at hmap
  have hlen : (lnItems cfg.parseInt (d.getText cfg.cc) 1 (firstTokens d)).length = nums.length := by
    rw [← hmap]; simp
  have hposp := lnItems_pos cfg.parseInt (d.getText cfg.cc) 1 (firstTokens d)
  generalize hits : lnItems cfg.parseInt (d.getText cfg.cc) 1 (firstTokens d) = its at *
  have hseq : LnSeq cfg.gap its := by
    refine ⟨hposp, ?_, ?_⟩
    · rw [← hmap, List.pairwise_map] at hinc
      exact hinc
    · intro pre a b post he
      have := hgap (pre.map (fun it => (it.token, it.num))) (a.token, a.num) (b.token, b.num)
        (post.map (fun it => (it.token, it.num))) (by rw [← hmap, he]; simp)
      exact this
  have hsort : sortBy lnLe its = its := by
    apply sortBy_of_pairwise
    refine hseq.num.imp ?_
    intro a b hab
    rw [lnLe_iff]; left; exact hab
  have hcands : lineNumberCandidates cfg.parseInt (d.getText cfg.cc) cfg.minCount cfg.gap (firstTokens d) =
      nums.map Prod.fst := by
    unfold lineNumberCandidates
    rw [hits, hsort]
    cases its with
    | nil =>
      exfalso
      simp at hmap
      exact hne hmap
    | cons it its =>
      simp only
      rw [lnSequences_single _ _ _ _ hseq]
      have : cfg.minCount ≤ ((([] : List LnItem) ++ it :: its).length : Int) := by
        rw [List.nil_append, hlen]; exact hmin
      rw [List.filter_cons_of_pos (by simpa using this)]
      rw [← hmap]
      simp
  unfold findLineNumbers
  simp only
  rw [hcands, List.length_map, if_neg (by omega), if_neg, if_neg (Rat.not_lt.2 hratio)]
  intro h0
  have : firstTokens d = [] := List.length_eq_zero_iff.1 h0
  rw [this] at hnums
  exact hne hnums

/-- Annotating tags exactly the tokens found; text, lines and the tags of all other tokens are
unchanged, and tokens on lines without a line number are not changed at all. -/
theorem C26_annotate (cfg : LineNumberCfg) (d d' : Doc) (h : annotateLineNumbers cfg d = .ok d') :
    ∃ toks, findLineNumbers cfg d = .ok toks ∧ SameBut d d' ∧
      (∀ j, d'.getTag j = if j ∈ toks then some cfg.tag else d.getTag j) ∧
      (∀ j, (∀ t ∈ toks, j ≠ t ∧ j ∉ d.lineOf t) → ∀ m, d'.getAttr j m = d.getAttr j m) := by
  unfold annotateLineNumbers at h
  split at h
  · cases h
  · next toks ht =>
    refine ⟨toks, ht, ?_⟩
    have h' := Except.ok.inj h
    clear h ht
    subst h'
    induction toks generalizing d with
    | nil => exact ⟨.refl d, by simp, by simp⟩
    | cons t toks ih =>
      rw [List.foldl_cons]
      have hs := sameBut_setTag d t (some cfg.tag) none none
      obtain ⟨i1, i2, i3⟩ := ih (d.setTag t (some cfg.tag))
      refine ⟨hs.trans i1, ?_, ?_⟩
      · intro j
        rw [i2, getTag_setTag_level]
        by_cases h1 : j ∈ toks <;> by_cases h2 : j = t <;> simp [h1, h2]
      · intro j hj m
        rw [i3 j (fun t' ht' => by rw [hs.lineOf]; exact hj t' (by simp [ht'])) m]
        exact (C12_frame d t _ none none j).2 (hj t (by simp)).1 (hj t (by simp)).2 m

/-- A page of three numbered lines and a heading. -/
def exNumbered : Doc := Doc.ofLines
  [[⟨c!"Title", false, [], none⟩],
   [⟨c!"1", false, [], none⟩, ⟨c!" ", true, [], none⟩, ⟨c!"a", false, [], none⟩],
   [⟨c!"2", false, [], none⟩],
   [⟨c!"4", false, [], none⟩, ⟨c!"b", false, [], none⟩]]

/-- Decimal digits. -/
def exParse (s : Str) : Option Int :=
  if s.all asciiClass.isDigit && !s.isEmpty then
    some (s.foldl (fun n c => 10 * n + (c.toNat - 48 : Nat)) 0) else none

def exLnCfg : LineNumberCfg := ⟨asciiClass, exParse, c!"line_no", 3, 1, 1/2⟩

example : findLineNumbers exLnCfg exNumbered = .ok [1, 4, 5] := by decide +kernel

example : findLineNumbers { exLnCfg with gap := 0 } exNumbered = .ok [] ∧
    findLineNumbers { exLnCfg with minCount := 4 } exNumbered = .ok [] ∧
    findLineNumbers { exLnCfg with threshold := 4/5 } exNumbered = .ok [] := by decide +kernel

/-! ## C27 Entities -/

/-- The entities are those of the specification: each tagged token that does not continue the entity
before it starts a new one. Their tokens are all tagged tokens in order, and their texts are the
texts of the tokens with the white space between them. -/
theorem C27_entities (d : Doc) :
    entities d = (entityRuns d d.nonSpaceTokens).map (fun p => (p.1, tokenText d p.2)) ∧
    (entityRuns d d.nonSpaceTokens).flatMap (·.2) =
      d.nonSpaceTokens.filter (fun i => (currentValue d i).isSome) ∧
    (∀ p ∈ entityRuns d d.nonSpaceTokens, p.2 ≠ [] ∧ (∀ i ∈ p.2, currentValue d i = some p.1) ∧
      (∀ i ∈ p.2.tail, startsWith c!"b-" ((d.getTag i).getD []) = false) ∧ p.2 <:+: d.nonSpaceTokens) ∧
    (∀ ids i, tokenText d (ids ++ [i]) =
      ids.flatMap (fun j => (d.tok j).text ++ ((d.tok j).whitespace).getD []) ++ (d.tok i).text) := by
  refine ⟨?_, entityRuns_flatten d _, entityRuns_values d _, tokenText_eq d⟩
  unfold entities
  rw [entityTokens_eq]

/-- `a b` tagged x, `c` starting another x, `d` untagged, `e` tagged y. -/
def exEntities : Doc := Doc.ofLines
  [[⟨c!"a", false, [(c!"tag", c!"b-x")], some c!" "⟩, ⟨c!" ", true, [], none⟩,
    ⟨c!"b", false, [(c!"tag", c!"i-x")], none⟩],
   [⟨c!"c", false, [(c!"tag", c!"b-x")], none⟩, ⟨c!"d", false, [], none⟩,
    ⟨c!"e", false, [(c!"tag", c!"i-y")], none⟩]]

example : entities exEntities = [(c!"x", c!"a b"), (c!"x", c!"c"), (c!"y", c!"e")] := by decide +kernel

/-! ## C28 Checks -/

/-- The values of a field among the entities, separated by spaces. -/
def entityText (d : Doc) (f : Str) : Str :=
  joinStr c!" " (((entities d).filter (fun p => decide (p.1 = f))).map Prod.snd)

/-- The targets of a field. -/
def targetsOf (targets : List CheckTarget) (f : Str) : List CheckTarget :=
  targets.filter (fun t => decide (t.name = f))

/-- A field has no target, or one with a text. -/
def usable (targets : List CheckTarget) (f : Str) : Prop :=
  targetsOf targets f = [] ∨ ∃ v, targetsOf targets f = [⟨f, some v⟩]

theorem C28_aux_values (targets : List CheckTarget) (fields : List Str) :
    (requiredValues targets fields = .error .runtimeError ∧ ∃ f ∈ fields, ¬ usable targets f) ∨
    ∃ r, requiredValues targets fields = .ok r ∧ (∀ f ∈ fields, usable targets f) ∧
      r.Pairwise (fun p q => p.1 ≠ q.1) ∧
      ∀ f v, r.get? f = some v ↔ f ∈ fields ∧ targetsOf targets f = [⟨f, some v⟩] := by
  have hb : ∀ f ∈ fields, ((requiredTargetsByName targets fields).get? f).getD [] = targetsOf targets f :=
    fun f hf => requiredTargets_get? targets fields f hf
  have hname : ∀ f t, t ∈ targetsOf targets f → t.name = f := by
    intro f t ht
    simpa using (List.mem_filter.1 ht).2
  rcases requiredValuesLoop_spec (requiredTargetsByName targets fields) fields [] with
    ⟨h1, f, hf, ts, h2, h3, h4⟩ | ⟨r, h1, h2, h3⟩
  · left
    refine ⟨h1, f, hf, ?_⟩
    rw [hb f hf] at h2
    subst h2
    rintro (h | ⟨v, h⟩)
    · exact h3 h
    · exact h4 ⟨_, v, h, rfl⟩
  · right
    refine ⟨r, h1, ?_, requiredValuesLoop_nodup _ _ _ _ .nil h1, ?_⟩
    · intro f hf
      rcases h2 f hf with h | ⟨t, v, h, hv⟩
      · left; rw [← hb f hf]; exact h
      · right
        rw [hb f hf] at h
        refine ⟨v, ?_⟩
        have hn := hname f t (by rw [h]; simp)
        rw [h]
        cases t
        simp only at hn hv
        rw [hn, hv]
    · intro f v
      rw [h3]
      by_cases hf : f ∈ fields
      · rw [hb f hf]
        simp only [hf, true_and]
        by_cases hn : targetsOf targets f = []
        · simp [hn]
        · simp only [hn, ne_eq, not_false_eq_true, if_true]
          rcases h2 f hf with h | ⟨t, w, h, hw⟩
          · rw [hb f hf] at h; exact absurd h hn
          · rw [hb f hf] at h
            have hnm := hname f t (by rw [h]; simp)
            rw [h]
            cases t
            simp only at hnm hw
            subst hnm
            simp [hw]
      · simp [hf]

/-- A document passes the checks exactly if no fields are to be checked, or: there are targets, each
field to be checked has no target or a single text, required fields have one, and the entities of
each field with a target match it well enough. -/
theorem C28_passes (ratio : Str → Str → Rat) (threshold : Rat) (matching required : List Str)
    (targets : List CheckTarget) (d : Doc) :
    passesChecks ratio threshold matching required targets d = .ok true ↔
      (matching = [] ∧ required = []) ∨
      (targets ≠ [] ∧ (∀ f ∈ matching ++ required, usable targets f) ∧
        (∀ f ∈ required, targetsOf targets f ≠ []) ∧
        ∀ f ∈ matching ++ required, ∀ v, targetsOf targets f = [⟨f, some v⟩] →
          (∃ p ∈ entities d, p.1 = f) ∧ threshold ≤ ratio v (entityText d f)) := by
  unfold passesChecks
  simp only
  by_cases h0 : matching ++ required = []
  · rw [if_pos (by rw [h0]; rfl)]
    simp only [List.append_eq_nil_iff] at h0
    simp [h0]
  · rw [if_neg (by rw [List.isEmpty_iff]; exact h0)]
    have h0' : ¬ (matching = [] ∧ required = []) := by rwa [List.append_eq_nil_iff] at h0
    simp only [h0', false_or]
    by_cases ht : targets = []
    · simp [ht]
    · rw [if_neg (by rw [List.isEmpty_iff]; exact ht)]
      rcases C28_aux_values targets (matching ++ required) with ⟨h1, f, hf, h2⟩ | ⟨r, h1, h2, hnd, h3⟩
      · rw [h1]
        simp only [reduceCtorEq, false_iff]
        rintro ⟨_, h, _⟩
        exact h2 (h f hf)
      · rw [h1]
        simp only
        have hget : ∀ f, f ∈ matching ++ required → ((r.get? f).isNone = true ↔ targetsOf targets f = []) := by
          intro f hf
          rcases h2 f hf with h | ⟨v, h⟩
          · have : r.get? f = none := by
              cases hr : r.get? f with
              | none => rfl
              | some v => have := ((h3 f v).1 hr).2; rw [h] at this; cases this
            simp [this, h]
          · have : r.get? f = some v := (h3 f v).2 ⟨hf, h⟩
            simp [this, h]
        by_cases hreq : (!required.isEmpty && required.any (fun f => (r.get? f).isNone)) = true
        · rw [if_pos hreq]
          simp only [Bool.and_eq_true, List.any_eq_true] at hreq
          obtain ⟨_, f, hf, hn⟩ := hreq
          simp only [Except.ok.injEq, Bool.false_eq_true, false_iff]
          rintro ⟨_, _, h, _⟩
          exact h f hf ((hget f (by simp [hf])).1 hn)
        · rw [if_neg hreq]
          have hreq' : ∀ f ∈ required, targetsOf targets f ≠ [] := by
            intro f hf h
            apply hreq
            simp only [Bool.and_eq_true, List.any_eq_true]
            refine ⟨?_, f, hf, (hget f (by simp [hf])).2 h⟩
            cases required with
            | nil => cases hf
            | cons => rfl
          by_cases hr : r = []
          · rw [if_pos (by rw [hr]; rfl)]
            simp only [true_iff]
            refine ⟨ht, h2, hreq', ?_⟩
            intro f hf v hv
            have := (h3 f v).2 ⟨hf, hv⟩
            rw [hr] at this; cases this
          · rw [if_neg (by rw [List.isEmpty_iff]; exact hr), Except.ok.injEq, valuesMatch_iff]
            constructor
            · intro h
              refine ⟨ht, h2, hreq', ?_⟩
              intro f hf v hv
              have hm := (Dict.mem_iff_get? r hnd f v).2 ((h3 f v).2 ⟨hf, hv⟩)
              have := h (f, v) hm
              simp only [entitiesByName_get?] at this
              refine ⟨?_, this.2⟩
              have hne := this.1
              rw [Ne, List.map_eq_nil_iff, List.filter_eq_nil_iff] at hne
              simp only [decide_eq_true_eq, Classical.not_forall, Classical.not_not] at hne
              obtain ⟨p, hp, hpf⟩ := hne
              exact ⟨p, hp, hpf⟩
            · rintro ⟨_, _, _, h⟩ ⟨f, v⟩ hp
              obtain ⟨hf, hv⟩ := (h3 f v).1 ((Dict.mem_iff_get? r hnd f v).1 hp)
              obtain ⟨⟨q, hq, hqf⟩, h5⟩ := h f hf v hv
              simp only [entitiesByName_get?]
              refine ⟨?_, h5⟩
              rw [Ne, List.map_eq_nil_iff, List.filter_eq_nil_iff]
              intro hx
              exact hx q hq (by simpa using hqf)

/-- The checks fail with an error exactly if there are fields to be checked but no targets, or a
field has several targets or one that is not a text. -/
theorem C28_error (ratio : Str → Str → Rat) (threshold : Rat) (matching required : List Str)
    (targets : List CheckTarget) (d : Doc) (e : Err) :
    passesChecks ratio threshold matching required targets d = .error e ↔
      e = .runtimeError ∧ matching ++ required ≠ [] ∧
        (targets = [] ∨ ∃ f ∈ matching ++ required, ¬ usable targets f) := by
  unfold passesChecks
  simp only
  by_cases h0 : matching ++ required = []
  · rw [if_pos (by rw [h0]; rfl)]
    simp [h0]
  · rw [if_neg (by rw [List.isEmpty_iff]; exact h0)]
    by_cases ht : targets = []
    · simp only [ht, List.isEmpty_nil, if_true, Except.error.injEq, true_or, and_true, ne_eq, h0,
        not_false_eq_true]
      exact eq_comm
    · rw [if_neg (by rw [List.isEmpty_iff]; exact ht)]
      simp only [ht, false_or, ne_eq, h0, not_false_eq_true, true_and]
      rcases C28_aux_values targets (matching ++ required) with ⟨h1, f, hf, h2⟩ | ⟨r, h1, h2, _, _⟩
      · rw [h1]
        simp only [Except.error.injEq]
        exact ⟨fun h => ⟨h.symm, f, hf, h2⟩, fun h => h.1.symm⟩
      · rw [h1]
        simp only
        constructor
        · intro h
          split at h
          · cases h
          · split at h <;> cases h
        · rintro ⟨_, f, hf, h⟩
          exact absurd (h2 f hf) h

/-- The title is found, the abstract has no target; then it is required but missing. -/
example :
    let ratio := fun (a b : Str) => if a = b then (1 : Rat) else 1/2
    passesChecks ratio (4/5) [c!"x", c!"abstract"] [] [⟨c!"x", some c!"a b c"⟩] exEntities = .ok true ∧
    passesChecks ratio (4/5) [c!"x"] [c!"abstract"] [⟨c!"x", some c!"a b c"⟩] exEntities = .ok false ∧
    passesChecks ratio (4/5) [c!"x"] [] [⟨c!"x", some c!"a b"⟩] exEntities = .ok false ∧
    passesChecks ratio (4/5) [c!"x"] [] [⟨c!"x", some c!"a b"⟩, ⟨c!"x", some c!"c"⟩] exEntities =
      .error .runtimeError := by decide +kernel

end Verif.Props
