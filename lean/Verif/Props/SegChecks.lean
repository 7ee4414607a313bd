/-
C98: the checks of the tool for segmentation.
-/
import Verif.Lemmas.SegPhases
import Verif.Model.SegChecks
import Verif.Props.Checks

namespace Verif
open Props Spec

theorem segValuesMatch_iff (search : Str → Str → Except Err Bool) (cfg : SegConfig) (byName : Dict (List Str)) (req : Dict Str) :
    segValuesMatch search cfg byName req = .ok true ↔
      ∀ p ∈ req, ∃ entity, Spec.labelOf cfg p.1 = some entity ∧ (byName.get? entity).getD [] ≠ [] ∧
        search (joinStr c!" " ((byName.get? entity).getD [])) p.2 = .ok true := by
  induction req with
  | nil => simp [segValuesMatch]
  | cons p req ih =>
    obtain ⟨f, v⟩ := p
    unfold segValuesMatch
    rw [List.forall_mem_cons, segTagByName_get?]
    cases hl : Spec.labelOf cfg f with
    | none => simp
    | some entity =>
      simp only [Option.some.injEq, exists_eq_left']
      by_cases h1 : (byName.get? entity).getD [] = []
      · simp [h1]
      · rw [if_neg (by rw [List.isEmpty_iff]; exact h1)]
        cases hs : search (joinStr c!" " ((byName.get? entity).getD [])) v with
        | error e => simp
        | ok b =>
          cases b with
          | false => simp
          | true => simp only [ih, h1, ne_eq, not_false_eq_true, true_and]

/-- **C98** A document passes the checks of segmentation exactly if no fields are to be checked, or: there are
targets, each field to be checked has no target or a single text, required fields have one, and for each field with a
target there is a segmentation label, there are entities with this label, and the value is found in their text. -/
theorem C98_passes (search : Str → Str → Except Err Bool) (cfg : SegConfig) (matching required : List Str)
    (targets : List CheckTarget) (d : Doc) :
    segPassesChecks search cfg matching required targets d = .ok true ↔
      (matching = [] ∧ required = []) ∨
      (targets ≠ [] ∧ (∀ f ∈ matching ++ required, usable targets f) ∧
        (∀ f ∈ required, targetsOf targets f ≠ []) ∧
        ∀ f ∈ matching ++ required, ∀ v, targetsOf targets f = [⟨f, some v⟩] →
          ∃ label, Spec.labelOf cfg f = some label ∧ (∃ p ∈ entities d, p.1 = label) ∧
            search (entityText d label) v = .ok true) := by
  unfold segPassesChecks
  simp only
  by_cases h0 : matching ++ required = []
  · rw [if_pos (by rw [h0]; rfl)]
    simp only [List.append_eq_nil_iff] at h0
    simp [h0]
  · rw [if_neg (by rw [List.isEmpty_iff]; exact h0)]
    have h0' : ¬ (matching = [] ∧ required = []) := by rwa [List.append_eq_nil_iff] at h0
    simp only [h0', false_or]
    by_cases ht : targets = []
    · simp [ht]
    · rw [if_neg (by rw [List.isEmpty_iff]; exact ht)]
      rcases C28_aux_values targets (matching ++ required) with ⟨h1, f, hf, h2⟩ | ⟨r, h1, h2, hnd, h3⟩
      · rw [h1]
        simp only [reduceCtorEq, false_iff]
        rintro ⟨_, h, _⟩
        exact h2 (h f hf)
      · rw [h1]
        simp only
        have hget : ∀ f, f ∈ matching ++ required → ((r.get? f).isNone = true ↔ targetsOf targets f = []) := by
          intro f hf
          rcases h2 f hf with h | ⟨v, h⟩
          · have : r.get? f = none := by
              cases hr : r.get? f with
              | none => rfl
              | some v => have := ((h3 f v).1 hr).2; rw [h] at this; cases this
            simp [this, h]
          · have : r.get? f = some v := (h3 f v).2 ⟨hf, h⟩
            simp [this, h]
        by_cases hreq : (!required.isEmpty && required.any (fun f => (r.get? f).isNone)) = true
        · rw [if_pos hreq]
          simp only [Bool.and_eq_true, List.any_eq_true] at hreq
          obtain ⟨_, f, hf, hn⟩ := hreq
          simp only [Except.ok.injEq, Bool.false_eq_true, false_iff]
          rintro ⟨_, _, h, _⟩
          exact h f hf ((hget f (by simp [hf])).1 hn)
        · rw [if_neg hreq]
          have hreq' : ∀ f ∈ required, targetsOf targets f ≠ [] := by
            intro f hf h
            apply hreq
            simp only [Bool.and_eq_true, List.any_eq_true]
            refine ⟨?_, f, hf, (hget f (by simp [hf])).2 h⟩
            cases required with
            | nil => cases hf
            | cons => rfl
          have hent : ∀ label, (∃ p ∈ entities d, p.1 = label) ↔ ((entities d).filter (fun p => decide (p.1 = label))).map Prod.snd ≠ [] := by
            intro label
            rw [Ne, List.map_eq_nil_iff, List.filter_eq_nil_iff]
            simp only [decide_eq_true_eq, Classical.not_forall, Classical.not_not, exists_prop]
          by_cases hr : r = []
          · rw [if_pos (by rw [hr]; rfl)]
            simp only [true_iff]
            refine ⟨ht, h2, hreq', ?_⟩
            intro f hf v hv
            have := (h3 f v).2 ⟨hf, hv⟩
            rw [hr] at this; cases this
          · rw [if_neg (by rw [List.isEmpty_iff]; exact hr), segValuesMatch_iff]
            constructor
            · intro h
              refine ⟨ht, h2, hreq', ?_⟩
              intro f hf v hv
              obtain ⟨label, l1, l2, l3⟩ := h (f, v) ((Dict.mem_iff_get? r hnd f v).2 ((h3 f v).2 ⟨hf, hv⟩))
              simp only [entitiesByName_get?] at l2 l3
              exact ⟨label, l1, (hent label).2 l2, l3⟩
            · rintro ⟨_, _, _, h⟩ ⟨f, v⟩ hp
              obtain ⟨hf, hv⟩ := (h3 f v).1 ((Dict.mem_iff_get? r hnd f v).1 hp)
              obtain ⟨label, l1, l2, l3⟩ := h f hf v hv
              refine ⟨label, l1, ?_⟩
              simp only [entitiesByName_get?]
              exact ⟨(hent label).1 l2, l3⟩

/-- Passing does not depend on the order in which the fields are checked. -/
theorem C98_any_order (search : Str → Str → Except Err Bool) (cfg : SegConfig) (m r m' r' : List Str)
    (hm : ∀ f, f ∈ m ↔ f ∈ m') (hr : ∀ f, f ∈ r ↔ f ∈ r') (targets : List CheckTarget) (d : Doc) :
    segPassesChecks search cfg m r targets d = .ok true ↔ segPassesChecks search cfg m' r' targets d = .ok true := by
  have hall : ∀ f, f ∈ m ++ r ↔ f ∈ m' ++ r' := fun f => by simp only [List.mem_append, hm, hr]
  have hnil : (m = [] ∧ r = []) ↔ (m' = [] ∧ r' = []) := by
    simp only [List.eq_nil_iff_forall_not_mem, hm, hr]
  rw [C98_passes, C98_passes, hnil]
  simp only [hall, hr]

/-- A document with a front and a body. -/
def exSegEntities : Doc := Doc.ofLines
  [[⟨c!"some", false, [(c!"tag", c!"front")], some c!" "⟩, ⟨c!" ", true, [], none⟩,
    ⟨c!"title", false, [(c!"tag", c!"front")], none⟩],
   [⟨c!"text", false, [(c!"tag", c!"body")], none⟩]]

/-- Finds exact occurrences. -/
def exSearch (text value : Str) : Except Err Bool := .ok ((List.range text.length).any (fun i => startsWith value (text.drop i)))

def exSegCheckCfg : SegConfig := { mapping := [(c!"front", [c!"title", c!"abstract"])] }

example :
    segPassesChecks exSearch exSegCheckCfg [c!"title", c!"abstract"] [c!"title"] [⟨c!"title", some c!"title"⟩] exSegEntities = .ok true ∧
    segPassesChecks exSearch exSegCheckCfg [] [c!"title"] [⟨c!"title", some c!"text"⟩] exSegEntities = .ok false ∧
    segPassesChecks exSearch exSegCheckCfg [] [c!"abstract"] [⟨c!"title", some c!"title"⟩] exSegEntities = .ok false ∧
    segPassesChecks exSearch exSegCheckCfg [] [c!"title"] [] exSegEntities = .error .runtimeError := by
  decide +kernel

/-- **C98**, disagreement: whether a file that does not pass is saved as a failed one or ends the run with an error
depends on the order of a set of fields: if one of the fields has no label in the configuration. -/
theorem C98_failure_depends_on_order :
    ∃ search cfg targets d,
      segPassesChecks search cfg [c!"title", c!"keywords"] [] targets d = .ok false ∧
      segPassesChecks search cfg [c!"keywords", c!"title"] [] targets d = .error .keyError :=
  ⟨exSearch, exSegCheckCfg, [⟨c!"title", some c!"text"⟩, ⟨c!"keywords", some c!"text"⟩], exSegEntities, by decide +kernel⟩

end Verif
