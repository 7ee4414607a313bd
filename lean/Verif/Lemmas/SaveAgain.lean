/-
What the writer does with a document depends on the texts of its tokens and its entities only.
-/
import Verif.Lemmas.ReloadEntities
import Verif.Lemmas.ReloadTokens
import Verif.Spec.SaveAgain
import Verif.Spec.ReloadSub
import Verif.Lemmas.LoadSub
import Verif.Props.TeiDoc

namespace Verif
open Spec

/-! ### Events -/

/-- Text with nothing (white space), or with the main tag, whether an entity starts, the path and whether a new element
below the main element starts within the entity. -/
abbrev SaveEvent := Str × Option (Option Str × Bool × List Str × Bool)

/-- Text in an entity that goes on is written into a new element below the main element. -/
def freshAt (mapping : Dict Str) (prev : Option Str) (path : List Str) (begun : List (Option Str)) (t : Tok) : Bool :=
  !startsAt prev begun t && decide ((mainPath mapping t).length < (tokenPath mapping t).length ∧
    (beginsSub t = true ∨ ¬ tokenPath mapping t <+: path))

/-- The tag and the path of the previous text, and the tags with begin prefix on white space since then. -/
abbrev EvSt := Option Str × List Str × List (Option Str)

def events (cc : CharClass) (mapping : Dict Str) (s : EvSt) : List Tok → List SaveEvent
  | [] => []
  | t :: ts =>
    if blank cc t then
      (t.text, none) :: events cc mapping (s.1, s.2.1, if beginsEntity t then mainValue t :: s.2.2 else s.2.2) ts
    else
      (t.text, some (mainValue t, startsAt s.1 s.2.2 t, tokenPath mapping t, freshAt mapping s.1 s.2.1 s.2.2 t)) ::
        events cc mapping (mainValue t, tokenPath mapping t, []) ts

/-- The state after some tokens. -/
def evEnd (cc : CharClass) (mapping : Dict Str) (s : EvSt) : List Tok → EvSt
  | [] => s
  | t :: ts =>
    if blank cc t then evEnd cc mapping (s.1, s.2.1, if beginsEntity t then mainValue t :: s.2.2 else s.2.2) ts
    else evEnd cc mapping (mainValue t, tokenPath mapping t, []) ts

theorem events_append (cc : CharClass) (mapping : Dict Str) (s : EvSt) (a b : List Tok) :
    events cc mapping s (a ++ b) = events cc mapping s a ++ events cc mapping (evEnd cc mapping s a) b := by
  induction a generalizing s with
  | nil => rfl
  | cons t a ih =>
    rw [List.cons_append, events, events, evEnd]
    split
    · rw [ih]; rfl
    · rw [ih]; rfl

theorem events_texts (cc : CharClass) (mapping : Dict Str) (s : EvSt) (a : List Tok) :
    (events cc mapping s a).map (·.1) = a.map (·.text) := by
  induction a generalizing s with
  | nil => rfl
  | cons t a ih =>
    rw [events]
    split <;> simp [ih]

/-! ### The writer on events -/

/-- `x`, then `f` with its result. -/
def andThen {α β : Type} (x : Except Err α) (f : α → Except Err β) : Except Err β :=
  match x with
  | .error e => .error e
  | .ok a => f a

theorem andThen_assoc {α β γ : Type} (x : Except Err α) (f : α → Except Err β) (g : β → Except Err γ) :
    andThen (andThen x f) g = andThen x (fun a => andThen (f a) g) := by
  cases x <;> rfl

/-- Flush the pending white space and go to the path. -/
def placeAt (cfg : WriteCfg) (p : List Str) (pend : List Str) (w : Writer) : Except Err Writer :=
  andThen (flushPending cfg p pend w) (requirePath cfg.okNode p)

def eventStep (cfg : WriteCfg) (w : Writer) (pend : List Str) : SaveEvent → Except Err (Writer × List Str)
  | (s, none) => .ok (w, pend ++ [s])
  | (s, some (v, start, p, fresh)) =>
    andThen (andThen (if start then requirePath cfg.okNode (tagRequiredPath cfg.mapping v).dropLast w
          else if fresh then requirePathOrBelow cfg.okNode p.dropLast w
          else .ok w)
        (placeAt cfg p pend))
      (fun w3 => .ok (w3.appendText s, []))

def eventRun (cfg : WriteCfg) : Writer × List Str → List SaveEvent → Except Err (Writer × List Str)
  | x, [] => .ok x
  | x, e :: es =>
    match eventStep cfg x.1 x.2 e with
    | .error err => .error err
    | .ok y => eventRun cfg y es

def eventLines (cfg : WriteCfg) (first : Bool) : Writer × List Str → List (List SaveEvent) → Except Err (Writer × List Str)
  | x, [] => .ok x
  | x, l :: ls =>
    match eventRun cfg (if first then x else (x.1.append lbElem, x.2)) l with
    | .error e => .error e
    | .ok y => eventLines cfg false y ls

theorem commonPath_nil (p : List Str) : commonPath [] p = [] := by cases p <;> rfl

theorem requirePath_top (ok : Str → Dict Str → Bool) (w : Writer) :
    requirePath ok [] w = .ok (if w.path = [] then w else { w.leaveN w.path.length with path := [] }) := by
  unfold requirePath
  have hc : commonPath w.path [] = [] := by cases w.path <;> rfl
  by_cases h : w.path = []
  · simp [h]
  · rw [if_neg (fun h' => h h'.symm), if_neg h, hc]
    rfl

theorem leaveN_zero_path (w : Writer) : ({ w.leaveN 0 with path := w.path } : Writer) = w := rfl

theorem commonPath_again (p q : List Str) : commonPath p (commonPath p q) = commonPath p q := by
  have h := prefix_commonPath (commonPath_prefix_left p q) (List.prefix_refl _)
  exact (List.IsPrefix.eq_of_length_le h (commonPath_prefix_right _ _).length_le).symm

/-- Going to the common part of the paths. -/
theorem requirePath_common (ok : Str → Dict Str → Bool) (p : List Str) (w : Writer) :
    requirePath ok (commonPath w.path p) w =
      .ok { w.leaveN (w.path.length - (commonPath w.path p).length) with path := commonPath w.path p } := by
  unfold requirePath
  by_cases h : commonPath w.path p = w.path
  · rw [if_pos h, h, Nat.sub_self]; rfl
  · rw [if_neg h, commonPath_again]
    simp only [List.drop_length]
    rfl

/-- It makes no difference to go to the common part of the paths first. -/
theorem placeAt_common (cfg : WriteCfg) (p : List Str) (pend : List Str) (w : Writer) :
    andThen (requirePath cfg.okNode (commonPath w.path p) w) (placeAt cfg p pend) = placeAt cfg p pend w := by
  rw [requirePath_common]
  simp only [andThen]
  unfold placeAt
  have hcc : commonPath (commonPath w.path p) p = commonPath w.path p :=
    (commonPath_prefix_left _ _).eq_of_length_le
      (prefix_commonPath (List.prefix_refl _) (commonPath_prefix_right w.path p)).length_le
  cases pend with
  | nil =>
    simp only [flushPending, andThen]
    unfold requirePath
    simp only [hcc, Nat.sub_self]
    by_cases h1 : p = w.path
    · rw [if_pos h1]
      have h2 : commonPath w.path p = w.path := by rw [h1, commonPath_self]
      rw [h2, Nat.sub_self, if_pos h1]; rfl
    · rw [if_neg h1]
      by_cases h2 : p = commonPath w.path p
      · rw [if_pos h2, ← h2]
        simp only [List.drop_length]
        rfl
      · rw [if_neg h2]; rfl
  | cons s ss =>
    simp only [flushPending, requirePathOrBelow, hcc]
    rw [requirePath_common]
    have : requirePath cfg.okNode (commonPath w.path p)
        { w.leaveN (w.path.length - (commonPath w.path p).length) with path := commonPath w.path p } =
        .ok { w.leaveN (w.path.length - (commonPath w.path p).length) with path := commonPath w.path p } := by
      unfold requirePath
      exact if_pos rfl
    rw [this]

theorem split_begin_iff (t : Tok) : (splitTagPrefix (fullTag t)).1 = some bPrefix ↔ beginsEntity t = true := by
  rw [splitTagPrefix_begin, beginsEntity_iff]; rfl

theorem writeToken_blank (cfg : WriteCfg) (st : WState) (t : Tok) (hb : blank cfg.cc t = true) :
    writeToken cfg st t = .ok { st with
      resets := if (splitTagPrefix (fullTag t)).1 = some bPrefix then (splitTagPrefix (fullTag t)).2 :: st.resets else st.resets
      pending := st.pending ++ [t.text] } := by
  unfold writeToken
  rw [writerTags_eq]
  simp only
  rw [strip_isEmpty_eq_blank, hb, if_pos rfl]

theorem beginsSub_iff (t : Tok) : beginsSub t = true ↔ isSubBegin t := by
  unfold beginsSub isSubBegin
  cases fullSubTag t with
  | none => simp
  | some v => rw [startsWith_iff]; constructor <;> (rintro ⟨r, h⟩; exact ⟨r, by simpa using h.symm⟩)

theorem split_subBegin_iff (t : Tok) : (splitTagPrefix (fullSubTag t)).1 = some bPrefix ↔ beginsSub t = true := by
  rw [splitTagPrefix_begin, beginsSub_iff]; rfl

theorem writeToken_moves (cfg : WriteCfg) (st : WState) (t : Tok) (hb : blank cfg.cc t = false) :
    writeToken cfg st t =
      andThen (andThen (if beginsEntity t = true then requirePath cfg.okNode (mainPath cfg.mapping t).dropLast st.w
            else if (splitTagPrefix (fullTag t)).2 ∈ st.resets then requirePath cfg.okNode [] st.w
            else if beginsSub t = true then requirePathOrBelow cfg.okNode
              (if hasSub cfg.mapping t then subPath cfg.mapping t else []).dropLast st.w
            else .ok st.w) (placeAt cfg (tokenPath cfg.mapping t) st.pending))
        (fun w3 => .ok { w := w3.appendText t.text, pending := [], resets := [] }) := by
  unfold writeToken
  rw [writerTags_eq]
  simp only
  rw [strip_isEmpty_eq_blank, hb]
  have hm : tagRequiredPath cfg.mapping (splitTagPrefix (fullTag t)).2 = mainPath cfg.mapping t := rfl
  rw [hm]
  obtain ⟨e1, e2⟩ := effectiveSub_eq cfg t
  have hreq : (if truthy (effectiveSub cfg (mainPath cfg.mapping t) (fullSubTag t)).1 = true then
      (effectiveSub cfg (mainPath cfg.mapping t) (fullSubTag t)).2 else mainPath cfg.mapping t) =
      tokenPath cfg.mapping t := by
    rw [e1, e2]
    unfold tokenPath
    by_cases hs : hasSub cfg.mapping t <;> simp [hs]
  rw [hreq, e2]
  simp only [Bool.false_eq_true, if_false, split_begin_iff, split_subBegin_iff, List.contains_iff_mem]
  generalize (if beginsEntity t = true then requirePath cfg.okNode (mainPath cfg.mapping t).dropLast st.w
    else if (splitTagPrefix (fullTag t)).2 ∈ st.resets then requirePath cfg.okNode [] st.w
    else if beginsSub t = true then requirePathOrBelow cfg.okNode
              (if hasSub cfg.mapping t then subPath cfg.mapping t else []).dropLast st.w
    else Except.ok st.w) = X
  cases X with
  | error e => rfl
  | ok w1 =>
    simp only [andThen, placeAt]
    cases flushPending cfg (tokenPath cfg.mapping t) st.pending w1 with
    | error e => rfl
    | ok w2 =>
      simp only
      cases requirePath cfg.okNode (tokenPath cfg.mapping t) w2 <;> rfl

theorem deepBegin_append (cc : CharClass) (mapping : Dict Str) (s : EvSt) (a b : List Tok) :
    NestedMarked cc mapping s.1 s.2.2 (a ++ b) ↔
      NestedMarked cc mapping s.1 s.2.2 a ∧
        NestedMarked cc mapping (evEnd cc mapping s a).1 (evEnd cc mapping s a).2.2 b := by
  induction a generalizing s with
  | nil => simp [NestedMarked, evEnd]
  | cons t a ih =>
    rw [List.cons_append, NestedMarked, NestedMarked, evEnd]
    split
    · exact ih (s.1, s.2.1, if beginsEntity t = true then mainValue t :: s.2.2 else s.2.2)
    · rw [ih (mainValue t, tokenPath mapping t, []), and_assoc]

/-- What is known about the tokens `all` of the document. -/
structure Writable (cc : CharClass) (mapping : Dict Str) (all : List Tok) : Prop where
  sub : ∀ t ∈ all, blank cc t = false → SubBelow mapping t
  begins : ∀ t ∈ all, beginsEntity t = true → mainValue t ≠ none
  apart : ∀ t ∈ all, ∀ u ∈ all, blank cc t = false → blank cc u = false → mainValue t ≠ none →
    (mainPath mapping t).length ≤ 1 → mainValue t ≠ mainValue u → commonPath (tokenPath mapping u) (tokenPath mapping t) = []

/-- The state of the writer belongs to the state of the events. -/
structure EvInv (cfg : WriteCfg) (all : List Tok) (st : WState) (s : EvSt) : Prop where
  resets : st.resets = s.2.2
  proper : ∀ v ∈ s.2.2, v ≠ none ∧ v ≠ some []
  path : st.w.path = s.2.1
  prev : (s.2.1 = [] ∧ s.1 = none) ∨
    ∃ u ∈ all, blank cfg.cc u = false ∧ mainValue u = s.1 ∧ s.2.1 = tokenPath cfg.mapping u

theorem mainValue_strip {t : Tok} (h : mainValue t ≠ none) : (splitTagPrefix (fullTag t)).2 = mainValue t := by
  have h1 : (splitTagPrefix (fullTag t)).2 = stripTagPrefix (fullTag t) := rfl
  rw [h1]
  rw [mainValue_eq] at h ⊢
  cases hs : stripTagPrefix (fullTag t) with
  | none => rw [hs] at h; exact absurd rfl h
  | some v =>
    rw [hs] at h
    simp only [Option.bind_some, normTag] at h ⊢
    by_cases hv : v = []
    · rw [if_pos hv] at h; exact absurd rfl h
    · rw [if_neg hv]

theorem mainValue_ne_empty (t : Tok) : mainValue t ≠ some [] := by
  unfold mainValue
  split <;> simp

theorem mainPath_ne_nil {mapping : Dict Str} {t : Tok} (h : mainValue t ≠ none) : mainPath mapping t ≠ [] :=
  fun hm => h (mainValue_of_noPath mapping t hm)

/-- A tag with the begin prefix on white space is the tag of the token exactly if its value is. -/
theorem strip_mem_iff {begun : List (Option Str)} (hp : ∀ v ∈ begun, v ≠ none ∧ v ≠ some []) (t : Tok) :
    (splitTagPrefix (fullTag t)).2 ∈ begun ↔ mainValue t ≠ none ∧ mainValue t ∈ begun := by
  by_cases hv : mainValue t = none
  · refine iff_of_false (fun h => ?_) (fun h => h.1 hv)
    obtain ⟨p1, p2⟩ := hp _ h
    rw [mainValue_eq] at hv
    have e : (splitTagPrefix (fullTag t)).2 = stripTagPrefix (fullTag t) := rfl
    rw [e] at p1 p2
    cases hs : stripTagPrefix (fullTag t) with
    | none => exact p1 hs
    | some v =>
      rw [hs] at hv p2
      simp only [Option.bind_some, normTag] at hv
      by_cases hv' : v = []
      · exact p2 (by rw [hv'])
      · rw [if_neg hv'] at hv; cases hv
  · rw [mainValue_strip hv]
    exact ⟨fun h => ⟨hv, h⟩, fun h => h.2⟩

theorem commonPath_dropLast {w p : List Str} (h : ¬ p <+: w) : commonPath w p.dropLast = commonPath w p := by
  have h1 := commonPath_prefix_left w p
  have h2 := commonPath_prefix_right w p
  have hlt : (commonPath w p).length < p.length := by
    refine Nat.lt_of_le_of_ne h2.length_le (fun he => h ?_)
    rw [h2.eq_of_length he] at h1
    exact h1
  have h3 : commonPath w p <+: p.dropLast := by
    rw [List.dropLast_eq_take, List.prefix_take_iff]
    exact ⟨h2, by omega⟩
  have h4 := prefix_commonPath h1 h3
  have h5 := prefix_commonPath (commonPath_prefix_left w p.dropLast) ((commonPath_prefix_right w p.dropLast).trans (List.dropLast_prefix _))
  exact h5.eq_of_length_le h4.length_le

theorem eventStep_text (cfg : WriteCfg) (all : List Tok) (hW : Writable cfg.cc cfg.mapping all) (t : Tok) (ht : t ∈ all)
    (hb : blank cfg.cc t = false) (st : WState) (s : EvSt)
    (hi : EvInv cfg all st s)
    (hdeep : startsAt s.1 s.2.2 t = true → (mainPath cfg.mapping t).length ≤ 1 ∨ beginsEntity t = true) :
    writeToken cfg st t = andThen (eventStep cfg st.w st.pending (t.text, some (mainValue t, startsAt s.1 s.2.2 t,
        tokenPath cfg.mapping t, freshAt cfg.mapping s.1 s.2.1 s.2.2 t)))
      (fun x => .ok ⟨x.1, x.2, []⟩) := by
  rw [writeToken_moves cfg st t hb, eventStep, ← mainPath_value]
  have key : andThen (if beginsEntity t = true then requirePath cfg.okNode (mainPath cfg.mapping t).dropLast st.w
            else if (splitTagPrefix (fullTag t)).2 ∈ st.resets then requirePath cfg.okNode [] st.w
            else if beginsSub t = true then requirePathOrBelow cfg.okNode
              (if hasSub cfg.mapping t then subPath cfg.mapping t else []).dropLast st.w
            else .ok st.w) (placeAt cfg (tokenPath cfg.mapping t) st.pending) =
      andThen (if startsAt s.1 s.2.2 t = true then requirePath cfg.okNode (mainPath cfg.mapping t).dropLast st.w
          else if freshAt cfg.mapping s.1 s.2.1 s.2.2 t = true then requirePathOrBelow cfg.okNode (tokenPath cfg.mapping t).dropLast st.w
          else .ok st.w)
        (placeAt cfg (tokenPath cfg.mapping t) st.pending) := by
    rw [hi.resets]
    simp only [strip_mem_iff hi.proper t]
    have hsubs : beginsSub t = true → hasSub cfg.mapping t ∧ tokenPath cfg.mapping t = subPath cfg.mapping t ∧
        (mainPath cfg.mapping t).length < (tokenPath cfg.mapping t).length := by
      intro h
      obtain ⟨h1, h2⟩ := hW.sub t ht hb ((beginsSub_iff t).1 h)
      have : tokenPath cfg.mapping t = subPath cfg.mapping t := if_pos h1
      exact ⟨h1, this, by rw [this]; exact h2⟩
    have hcommon : ∀ h : beginsSub t = true, requirePathOrBelow cfg.okNode
              (if hasSub cfg.mapping t then subPath cfg.mapping t else []).dropLast st.w =
            requirePathOrBelow cfg.okNode (tokenPath cfg.mapping t).dropLast st.w := by
      intro h
      obtain ⟨h1, h2, _⟩ := hsubs h
      rw [if_pos h1, h2]
    rcases Bool.eq_false_or_eq_true (startsAt s.1 s.2.2 t) with hst | hst
    · rw [if_pos hst]
      have hst' := hst
      unfold startsAt at hst'
      rw [decide_eq_true_eq] at hst'
      obtain ⟨hv, hst'⟩ := hst'
      by_cases hB : beginsEntity t = true
      · rw [if_pos hB]
      · have hl := (hdeep hst).resolve_right hB
        have hd : (mainPath cfg.mapping t).dropLast = [] := by
          rw [← List.length_eq_zero_iff, List.length_dropLast]; omega
        rw [if_neg hB, hd]
        by_cases hR : mainValue t ∈ s.2.2
        · rw [if_pos ⟨hv, hR⟩]
        · rw [if_neg (fun h => hR h.2)]
          have hP := (hst'.resolve_left hB).resolve_left hR
          have hcp : commonPath st.w.path (tokenPath cfg.mapping t) = [] := by
            rw [hi.path]
            rcases hi.prev with ⟨h, _⟩ | ⟨u, hu, hbu, hvu, hpu⟩
            · rw [h, commonPath_nil]
            · rw [hpu]
              exact hW.apart t ht u hu hb hbu hv hl (fun h => hP (by rw [← hvu, h]))
          have h1 := placeAt_common cfg (tokenPath cfg.mapping t) st.pending st.w
          rw [hcp] at h1
          rw [h1]
          by_cases hS : beginsSub t = true
          · rw [if_pos hS, hcommon hS]
            have hc2 : commonPath st.w.path (tokenPath cfg.mapping t).dropLast = [] := by
              have := prefix_commonPath (commonPath_prefix_left st.w.path (tokenPath cfg.mapping t).dropLast)
                ((commonPath_prefix_right _ _).trans (List.dropLast_prefix _))
              rw [hcp] at this
              exact List.prefix_nil.1 this
            unfold requirePathOrBelow
            rw [hc2, h1]
          · rw [if_neg hS]; rfl
    · have hns : ¬ startsAt s.1 s.2.2 t = true := by rw [hst]; simp
      have hB : ¬ beginsEntity t = true := by
        intro h
        unfold startsAt at hst
        rw [decide_eq_false_iff_not] at hst
        exact hst ⟨hW.begins t ht h, .inl h⟩
      have hR : ¬ (mainValue t ≠ none ∧ mainValue t ∈ s.2.2) := by
        intro h
        unfold startsAt at hst
        rw [decide_eq_false_iff_not] at hst
        exact hst ⟨h.1, .inr (.inl h.2)⟩
      rw [if_neg hB, if_neg hR, if_neg hns]
      unfold freshAt
      rw [hst, ← hi.path]
      simp only [Bool.not_false, Bool.true_and, decide_eq_true_eq]
      by_cases hS : beginsSub t = true
      · rw [if_pos hS, hcommon hS, if_pos ⟨(hsubs hS).2.2, .inl hS⟩]
      · rw [if_neg hS]
        by_cases hF : (mainPath cfg.mapping t).length < (tokenPath cfg.mapping t).length ∧
            (beginsSub t = true ∨ ¬ tokenPath cfg.mapping t <+: st.w.path)
        · rw [if_pos hF]
          have := hF.2.resolve_left hS
          unfold requirePathOrBelow
          rw [commonPath_dropLast this, placeAt_common]
          rfl
        · rw [if_neg hF]
  rw [key]
  generalize andThen (if startsAt s.1 s.2.2 t = true then _ else _ : Except Err Writer) _ = X
  cases X <;> rfl

theorem requirePath_path {ok : Str → Dict Str → Bool} {req : List Str} {w w' : Writer} (h : requirePath ok req w = .ok w') :
    w'.path = req := by
  have he : ∀ (fs : List Str) (w w' : Writer), enterPath ok fs w = .ok w' → w'.path = w.path ++ fs := by
    intro fs
    induction fs with
    | nil => intro w w' h; cases h; simp
    | cons f fs ih =>
      intro w w' h
      simp only [enterPath] at h
      split at h
      · cases h
      · split at h
        · rw [ih _ _ h]; simp
        · cases h
  unfold requirePath at h
  split at h
  · next hr => cases h; exact hr.symm
  · simp only at h
    rw [he _ _ _ h]
    exact List.prefix_iff_eq_append.1 (commonPath_prefix_right w.path req)

/-- The writer on tokens and on their events. -/
theorem writeTokens_events (cfg : WriteCfg) (all : List Tok) (hW : Writable cfg.cc cfg.mapping all) (ts : List Tok)
    (hts : ∀ t ∈ ts, t ∈ all) (st : WState) (s : EvSt)
    (hi : EvInv cfg all st s) (hdeep : NestedMarked cfg.cc cfg.mapping s.1 s.2.2 ts) :
    eventRun cfg (st.w, st.pending) (events cfg.cc cfg.mapping s ts) =
        andThen (writeTokens cfg st ts) (fun s => .ok (s.w, s.pending)) ∧
      ∀ st', writeTokens cfg st ts = .ok st' → EvInv cfg all st' (evEnd cfg.cc cfg.mapping s ts) := by
  induction ts generalizing st s with
  | nil => exact ⟨rfl, fun st' h => by cases h; exact hi⟩
  | cons t ts ih =>
    have hts' : ∀ u ∈ ts, u ∈ all := fun u hu => hts u (by simp [hu])
    rw [NestedMarked] at hdeep
    rw [events, evEnd]
    cases hb : blank cfg.cc t with
    | true =>
      rw [hb, if_pos rfl] at hdeep
      rw [if_pos rfl, if_pos rfl, eventRun]
      have hw := writeToken_blank cfg st t hb
      simp only [writeTokens, hw, eventStep]
      refine ih hts' ⟨st.w, st.pending ++ [t.text], _⟩ (s.1, s.2.1, _) ?_ hdeep
      refine ⟨?_, ?_, hi.path, hi.prev⟩
      · simp only
        by_cases hB : beginsEntity t = true
        · rw [if_pos ((split_begin_iff t).2 hB), if_pos hB, hi.resets, mainValue_strip (hW.begins t (hts t (by simp)) hB)]
        · rw [if_neg (fun h => hB ((split_begin_iff t).1 h)), if_neg hB, hi.resets]
      · intro v hv
        simp only at hv
        split at hv
        · next hB =>
          rcases List.mem_cons.1 hv with rfl | hv
          · exact ⟨hW.begins t (hts t (by simp)) hB, mainValue_ne_empty t⟩
          · exact hi.proper v hv
        · exact hi.proper v hv
    | false =>
      rw [hb, if_neg (by simp)] at hdeep
      rw [if_neg (by simp), if_neg (by simp), eventRun]
      have hw := eventStep_text cfg all hW t (hts t (by simp)) hb st s hi hdeep.1
      cases hs : eventStep cfg st.w st.pending (t.text, some (mainValue t, startsAt s.1 s.2.2 t,
          tokenPath cfg.mapping t, freshAt cfg.mapping s.1 s.2.1 s.2.2 t)) with
      | error e =>
        rw [hs] at hw
        simp only [andThen] at hw
        simp only [writeTokens, hw, andThen, true_and]
        intro st' h; cases h
      | ok x =>
        rw [hs] at hw
        simp only [andThen] at hw
        simp only [writeTokens, hw]
        apply ih hts' ⟨x.1, x.2, []⟩ (mainValue t, tokenPath cfg.mapping t, []) _ hdeep.2
        refine ⟨rfl, by simp, ?_, .inr ⟨t, hts t (by simp), hb, rfl, rfl⟩⟩
        rw [eventStep] at hs
        generalize (if startsAt s.1 s.2.2 t = true then _ else _ : Except Err Writer) = X at hs
        cases X with
        | error e => cases hs
        | ok w1 =>
          simp only [andThen, placeAt] at hs
          cases hf : flushPending cfg (tokenPath cfg.mapping t) st.pending w1 with
          | error e => rw [hf] at hs; cases hs
          | ok w2 =>
            rw [hf] at hs
            simp only at hs
            cases hr : requirePath cfg.okNode (tokenPath cfg.mapping t) w2 with
            | error e => rw [hr] at hs; cases hs
            | ok w3 =>
              rw [hr] at hs
              cases hs
              have := requirePath_path hr
              exact this

/-! ### Lines -/

def evLines (cc : CharClass) (mapping : Dict Str) (s : EvSt) : List (List Tok) → List (List SaveEvent)
  | [] => []
  | l :: ls => events cc mapping s l :: evLines cc mapping (evEnd cc mapping s l) ls

theorem evLines_flatten (cc : CharClass) (mapping : Dict Str) (s : EvSt) (ls : List (List Tok)) :
    (evLines cc mapping s ls).flatten = events cc mapping s ls.flatten := by
  induction ls generalizing s with
  | nil => rfl
  | cons l ls ih => rw [evLines, List.flatten_cons, List.flatten_cons, events_append, ih]

theorem evLines_texts (cc : CharClass) (mapping : Dict Str) (s : EvSt) (ls : List (List Tok)) :
    (evLines cc mapping s ls).map (fun l => l.map (·.1)) = ls.map (fun l => l.map (·.text)) := by
  induction ls generalizing s with
  | nil => rfl
  | cons l ls ih => rw [evLines, List.map_cons, List.map_cons, events_texts, ih]

theorem writeLines_events (cfg : WriteCfg) (all : List Tok) (hW : Writable cfg.cc cfg.mapping all) (ls : List (List Tok))
    (hts : ∀ l ∈ ls, ∀ t ∈ l, t ∈ all) (first : Bool) (st : WState) (s : EvSt)
    (hi : EvInv cfg all st s) (hdeep : NestedMarked cfg.cc cfg.mapping s.1 s.2.2 ls.flatten) :
    eventLines cfg first (st.w, st.pending) (evLines cfg.cc cfg.mapping s ls) =
        andThen (writeLines cfg first st ls) (fun s => .ok (s.w, s.pending)) := by
  induction ls generalizing first st s with
  | nil => rfl
  | cons l ls ih =>
    rw [List.flatten_cons, deepBegin_append] at hdeep
    rw [evLines, eventLines]
    simp only [writeLines]
    have hst1 : EvInv cfg all (if first then st else { st with w := st.w.append lbElem }) s := by
      split
      · exact hi
      · exact ⟨hi.resets, hi.proper, hi.path, hi.prev⟩
    have e1 : (if first = true then (st.w, st.pending) else (st.w.append lbElem, st.pending)) =
        ((if first then st else { st with w := st.w.append lbElem }).w,
          (if first then st else { st with w := st.w.append lbElem }).pending) := by
      split <;> rfl
    rw [e1]
    obtain ⟨h1, h2⟩ := writeTokens_events cfg all hW l (hts l (by simp)) _ s hst1 hdeep.1
    rw [h1]
    cases hw : writeTokens cfg (if first then st else { st with w := st.w.append lbElem }) l with
    | error e => rfl
    | ok st2 =>
      simp only [andThen]
      exact ih (fun l hl => hts l (by simp [hl])) false st2 _ (h2 st2 hw) hdeep.2

theorem linesToTei_events (cfg : WriteCfg) (container : Frame) (lines : List (List Tok))
    (hW : Writable cfg.cc cfg.mapping lines.flatten) (hdeep : NestedMarked cfg.cc cfg.mapping none [] lines.flatten) :
    linesToTei cfg container lines =
      andThen (eventLines cfg true (⟨container, [], []⟩, []) (evLines cfg.cc cfg.mapping (none, [], []) lines))
        (fun x => andThen (flushPending cfg [] x.2 x.1) (fun w => .ok w.finish)) := by
  have := writeLines_events cfg lines.flatten hW lines (fun l hl t ht => List.mem_flatten.2 ⟨l, hl, ht⟩) true
    ⟨⟨container, [], []⟩, [], []⟩ (none, [], []) ⟨rfl, by simp, rfl, .inl ⟨rfl, rfl⟩⟩ hdeep
  rw [this]
  unfold linesToTei
  cases writeLines cfg true ⟨⟨container, [], []⟩, [], []⟩ lines with
  | error e => rfl
  | ok st =>
    simp only [andThen]
    cases flushPending cfg [] st.pending st.w <;> rfl

/-! ### Moving white space to the next line -/

/-- `Spec.moveSpace` for any elements. -/
def moveBy {α : Type} (p : α → Bool) (front : List α) : List (List α) → List (List α)
  | [] => []
  | [l] => [front ++ l]
  | l :: m :: ls =>
    ((front ++ l).reverse.dropWhile p).reverse :: moveBy p ((front ++ l).reverse.takeWhile p).reverse (m :: ls)

theorem moveSpace_eq_moveBy (cc : CharClass) (front : List Str) (ls : List (List Str)) :
    moveSpace cc front ls = moveBy (space cc) front ls := by
  induction ls generalizing front with
  | nil => rfl
  | cons l ls ih =>
    cases ls with
    | nil => rfl
    | cons m ls => rw [moveSpace, moveBy, ih]; rfl

theorem takeWhile_map_on {α β : Type} (f : α → β) (p : α → Bool) (q : β → Bool) (l : List α) (h : ∀ x ∈ l, p x = q (f x)) :
    (l.takeWhile p).map f = (l.map f).takeWhile q ∧ (l.dropWhile p).map f = (l.map f).dropWhile q := by
  induction l with
  | nil => exact ⟨rfl, rfl⟩
  | cons x l ih =>
    have h0 := h x (by simp)
    obtain ⟨i1, i2⟩ := ih (fun y hy => h y (by simp [hy]))
    cases hp : p x with
    | true => simp [hp, h0 ▸ hp, i1, i2]
    | false => simp [hp, h0 ▸ hp]

theorem moveBy_map {α β : Type} (f : α → β) (p : α → Bool) (q : β → Bool) (front : List α) (ls : List (List α))
    (h : ∀ x, x ∈ front ∨ (∃ l ∈ ls, x ∈ l) → p x = q (f x)) :
    (moveBy p front ls).map (List.map f) = moveBy q (front.map f) (ls.map (List.map f)) := by
  induction ls generalizing front with
  | nil => rfl
  | cons l ls ih =>
    cases ls with
    | nil => simp [moveBy]
    | cons m ls =>
      have hfl : ∀ x ∈ (front ++ l).reverse, p x = q (f x) := by
        intro x hx
        rw [List.mem_reverse, List.mem_append] at hx
        exact h x (hx.imp id (fun hx => ⟨l, by simp, hx⟩))
      obtain ⟨t1, t2⟩ := takeWhile_map_on f p q _ hfl
      rw [moveBy, List.map_cons, ih]
      · simp only [List.map_cons, moveBy, List.map_reverse, t1, t2, List.map_append]
      · rintro x (hx | ⟨l', hl', hx⟩)
        · exact hfl x ((List.takeWhile_sublist _).subset (List.mem_reverse.1 hx))
        · exact h x (.inr ⟨l', List.mem_cons_of_mem _ hl', hx⟩)

theorem moveBy_parts {α : Type} (p : α → Bool) (l : List α) :
    (l.reverse.dropWhile p).reverse ++ (l.reverse.takeWhile p).reverse = l := by
  rw [← List.reverse_append, List.takeWhile_append_dropWhile, List.reverse_reverse]

theorem moveBy_flatten {α : Type} (p : α → Bool) (front : List α) (ls : List (List α)) (hne : ls ≠ []) :
    (moveBy p front ls).flatten = front ++ ls.flatten := by
  induction ls generalizing front with
  | nil => exact absurd rfl hne
  | cons l ls ih =>
    cases ls with
    | nil => simp [moveBy]
    | cons m ls =>
      rw [moveBy, List.flatten_cons, ih _ (by simp), ← List.append_assoc, moveBy_parts]
      simp

theorem eventRun_append (cfg : WriteCfg) (x : Writer × List Str) (a b : List SaveEvent) :
    eventRun cfg x (a ++ b) = andThen (eventRun cfg x a) (fun y => eventRun cfg y b) := by
  induction a generalizing x with
  | nil => rfl
  | cons e a ih =>
    rw [List.cons_append, eventRun, eventRun]
    cases eventStep cfg x.1 x.2 e with
    | error e => rfl
    | ok y => exact ih y

/-- White space. -/
def isSpaceEvent (e : SaveEvent) : Bool := e.2.isNone

theorem eventRun_space (cfg : WriteCfg) (x : Writer × List Str) (a : List SaveEvent) (h : ∀ e ∈ a, isSpaceEvent e = true) :
    eventRun cfg x a = .ok (x.1, x.2 ++ a.map (·.1)) := by
  induction a generalizing x with
  | nil => simp [eventRun]
  | cons e a ih =>
    obtain ⟨s, l⟩ := e
    have h0 := h (s, l) (by simp)
    cases l with
    | some l => cases h0
    | none =>
      rw [eventRun]
      simp only [eventStep]
      rw [ih _ (fun e he => h e (by simp [he]))]
      simp

/-- Moving white space to the next line changes nothing in what is written. -/
theorem eventLines_moveBy (cfg : WriteCfg) (front : List SaveEvent) (ls : List (List SaveEvent)) (hne : ls ≠ [])
    (hf : ∀ e ∈ front, isSpaceEvent e = true) (first : Bool) (x : Writer × List Str) :
    eventLines cfg first x (moveBy isSpaceEvent front ls) = eventLines cfg first (x.1, x.2 ++ front.map (·.1)) ls := by
  induction ls generalizing front first x with
  | nil => exact absurd rfl hne
  | cons l ls ih =>
    have hfront : eventRun cfg (if first then x else (x.1.append lbElem, x.2)) (front ++ l) =
        eventRun cfg (if first then (x.1, x.2 ++ front.map (·.1)) else (x.1.append lbElem, x.2 ++ front.map (·.1))) l := by
      rw [eventRun_append, eventRun_space cfg _ front hf]
      cases first <;> rfl
    cases ls with
    | nil =>
      rw [moveBy, eventLines, eventLines, hfront]
    | cons m ls =>
      have hB : ∀ e ∈ ((front ++ l).reverse.takeWhile isSpaceEvent).reverse, isSpaceEvent e = true := by
        intro e he
        exact List.all_eq_true.1 (List.all_takeWhile ..) e (List.mem_reverse.1 he)
      rw [moveBy, eventLines]
      rw [eventLines]
      simp only
      rw [← hfront]
      generalize hl : front ++ l = fl at hB ⊢
      have hparts := moveBy_parts isSpaceEvent fl
      conv => rhs; rw [← hparts, eventRun_append]
      cases eventRun cfg (if first = true then x else (x.1.append lbElem, x.2)) (fl.reverse.dropWhile isSpaceEvent).reverse with
      | error e => rfl
      | ok y =>
        simp only [andThen]
        rw [eventRun_space cfg _ _ hB]
        exact ih _ (by simp) hB false y

theorem eq_of_flatten_lengths {α : Type} (a b : List (List α)) (h : a.flatten = b.flatten)
    (hl : a.map List.length = b.map List.length) : a = b := by
  induction a generalizing b with
  | nil =>
    cases b with
    | nil => rfl
    | cons y b => simp at hl
  | cons x a ih =>
    cases b with
    | nil => simp at hl
    | cons y b =>
      simp only [List.map_cons, List.cons.injEq] at hl
      rw [List.flatten_cons, List.flatten_cons] at h
      obtain ⟨h1, h2⟩ := List.append_inj h hl.1
      rw [h1, ih b h2 hl.2]

theorem events_space (cc : CharClass) (mapping : Dict Str) (s : EvSt) (ts : List Tok) :
    ∀ e ∈ events cc mapping s ts, isSpaceEvent e = space cc e.1 := by
  induction ts generalizing s with
  | nil => intro e he; cases he
  | cons t ts ih =>
    intro e he
    rw [events] at he
    split at he
    · next hb =>
      rcases List.mem_cons.1 he with rfl | he
      · exact hb.symm
      · exact ih _ e he
    · next hb =>
      rcases List.mem_cons.1 he with rfl | he
      · have : space cc t.text = false := by
          rw [Bool.eq_false_iff]; exact hb
        rw [this]; rfl
      · exact ih _ e he

/-- Two documents with the same texts (up to white space moved to the next line) and the same
events are written in the same way. -/
theorem linesToTei_same (cfg : WriteCfg) (container : Frame) (a b : List (List Tok))
    (hWa : Writable cfg.cc cfg.mapping a.flatten) (hda : NestedMarked cfg.cc cfg.mapping none [] a.flatten)
    (hWb : Writable cfg.cc cfg.mapping b.flatten) (hdb : NestedMarked cfg.cc cfg.mapping none [] b.flatten)
    (ht : b.map (fun l => l.map (·.text)) = moveSpace cfg.cc [] (a.map (fun l => l.map (·.text))))
    (he : events cfg.cc cfg.mapping (none, [], []) b.flatten = events cfg.cc cfg.mapping (none, [], []) a.flatten) :
    linesToTei cfg container b = linesToTei cfg container a := by
  rw [linesToTei_events cfg container a hWa hda, linesToTei_events cfg container b hWb hdb]
  congr 1
  cases hane : a with
  | nil =>
    subst hane
    simp only [List.map_nil, moveSpace, List.map_eq_nil_iff] at ht
    rw [ht]
  | cons l ls =>
    rw [← hane]
    have hne : evLines cfg.cc cfg.mapping (none, [], []) a ≠ [] := by rw [hane]; simp [evLines]
    have hmv := eventLines_moveBy cfg [] (evLines cfg.cc cfg.mapping (none, [], []) a) hne (by simp) true (⟨container, [], []⟩, [])
    simp only [List.map_nil, List.append_nil] at hmv
    rw [← hmv]
    congr 1
    have htext : (moveBy isSpaceEvent [] (evLines cfg.cc cfg.mapping (none, [], []) a)).map (List.map (·.1)) =
        b.map (fun l => l.map (·.text)) := by
      rw [moveBy_map (·.1) isSpaceEvent (space cfg.cc), ht, moveSpace_eq_moveBy]
      · congr 1
        exact evLines_texts cfg.cc cfg.mapping (none, [], []) a
      · rintro x (hx | ⟨l', hl', hx⟩)
        · cases hx
        · have : x ∈ (evLines cfg.cc cfg.mapping (none, [], []) a).flatten := List.mem_flatten.2 ⟨l', hl', hx⟩
          rw [evLines_flatten] at this
          exact events_space cfg.cc cfg.mapping (none, [], []) a.flatten x this
    apply eq_of_flatten_lengths
    · rw [moveBy_flatten _ _ _ hne, List.nil_append, evLines_flatten, evLines_flatten]
      exact he
    · have h1 := congrArg (List.map List.length) htext
      have h2 := congrArg (List.map List.length) (evLines_texts cfg.cc cfg.mapping (none, [], []) b)
      simp only [List.map_map, Function.comp_def, List.length_map] at h1 h2
      rw [h2, ← h1]

/-! ### The saved and loaded document -/

theorem tokenPath_unsub {mapping : Dict Str} {t : Tok} (h : Unsub t) : tokenPath mapping t = mainPath mapping t := by
  unfold tokenPath
  rw [if_neg]
  rintro ⟨h1, h2, _⟩
  exact h.elim h1 h2

theorem value_of_getD {t u : Tok} (h : (mainValue t).getD [] = (mainValue u).getD []) : mainValue t = mainValue u := by
  have h1 := mainValue_ne_empty t
  have h2 := mainValue_ne_empty u
  cases ht : mainValue t with
  | none =>
    cases hu : mainValue u with
    | none => rfl
    | some v => rw [ht, hu] at h; rw [hu] at h2; simp only [Option.getD] at h; rw [← h] at h2; exact absurd rfl h2
  | some v =>
    cases hu : mainValue u with
    | none => rw [ht, hu] at h; rw [ht] at h1; simp only [Option.getD] at h; rw [h] at h1; exact absurd rfl h1
    | some w => rw [ht, hu] at h; simp only [Option.getD] at h; rw [h]

/-- A main path does not lie strictly inside of another one. -/
theorem mains_apart (cc : CharClass) (mapping : Dict Str) (toks : List Tok)
    (hd : ∀ t ∈ toks, blank cc t = false → Distinct cc mapping toks t) (u t : Tok) (hu : u ∈ toks) (hub : blank cc u = false)
    (ht : t ∈ toks) (htb : blank cc t = false) (hm : mainPath mapping u ≠ []) (hp : mainPath mapping u <+: mainPath mapping t) :
    mainPath mapping u = mainPath mapping t := by
  refine Classical.byContradiction fun hne => ?_
  have hlt : (mainPath mapping u).length < (mainPath mapping t).length :=
    Nat.lt_of_le_of_ne hp.length_le (fun h => hne (hp.eq_of_length h))
  have he : (mainPath mapping t).take (mainPath mapping u).length = mainPath mapping u := (List.prefix_iff_eq_take.1 hp).symm
  obtain ⟨h1, h2⟩ := (hd t ht htb).outermost (mainPath mapping u).length (List.length_pos_iff.2 hm) hlt
  rw [he] at h1 h2
  rcases (hd u hu hub).configured with h | h
  · exact h1 h
  · exact h2 u hu hub h

/-- Different tags: no common element. -/
theorem apart_of_distinct (cc : CharClass) (mapping : Dict Str) (toks : List Tok)
    (hd : ∀ t ∈ toks, blank cc t = false → Distinct cc mapping toks t) (t : Tok) (ht : t ∈ toks) (u : Tok) (hut : u ∈ toks)
    (hbt : blank cc t = false) (hbu : blank cc u = false) (hv : mainValue t ≠ none)
    (hl : (mainPath mapping t).length ≤ 1) (hne : mainValue t ≠ mainValue u) :
    commonPath (tokenPath mapping u) (tokenPath mapping t) = [] := by
  apply Classical.byContradiction
  intro hc
  have hcl := List.length_pos_iff.2 hc
  have hnt := mainPath_ne_nil (mapping := mapping) hv
  have hnl := List.length_pos_iff.2 hnt
  have hpre : mainPath mapping t <+: tokenPath mapping u := by
    have h1 := commonPath_prefix_right (tokenPath mapping u) (tokenPath mapping t)
    have h2 := List.prefix_of_prefix_length_le (tokenPath_eq mapping t) h1 (by omega)
    exact h2.trans (commonPath_prefix_left _ _)
  have hnu : mainPath mapping u ≠ [] := by
    intro h
    rw [(hd u hut hbu).main h] at hpre
    exact hnt (List.prefix_nil.1 hpre)
  have hul := List.length_pos_iff.2 hnu
  have hpm := List.prefix_of_prefix_length_le hpre (tokenPath_eq mapping u) (by omega)
  have he := mains_apart cc mapping toks hd t u ht hbt hut hbu hnt hpm
  have o1 := (hd t ht hbt).owner hnt
  have o2 := (hd u hut hbu).owner hnu
  rw [he, o2] at o1
  exact hne (value_of_getD o1).symm

theorem replaceChild_same (new : Elem) (t : Str) (ts : List Str)
    (ih : ∀ (e : Elem) (rest : List Elem), findAll ts e = new :: rest → replaceFirst (fun _ => new) ts e = some e)
    (cs : List Elem) (rest : List Elem) (h : (cs.filter (fun c => c.tag = t)).flatMap (findAll ts) = new :: rest) :
    replaceChild t (replaceFirst (fun _ => new) ts) cs = some cs := by
  induction cs with
  | nil => cases h
  | cons d cs ihc =>
    by_cases hd : d.tag = t
    · simp only [List.filter_cons, hd, decide_true, if_true, List.flatMap_cons, replaceChild] at h ⊢
      cases hf : findAll ts d with
      | nil =>
        rw [hf, List.nil_append] at h
        rw [(replaceFirst_text new ts d).2 hf, ihc h]; rfl
      | cons x xs =>
        rw [hf, List.cons_append, List.cons.injEq] at h
        rw [ih d xs (by rw [hf, h.1])]
    · simp only [List.filter_cons, hd, decide_false, Bool.false_eq_true, if_false, replaceChild] at h ⊢
      rw [ihc h]; rfl

/-- Replacing the first container by itself. -/
theorem replaceFirst_same (new : Elem) (path : List Str) (e : Elem) (rest : List Elem)
    (h : findAll path e = new :: rest) : replaceFirst (fun _ => new) path e = some e := by
  induction path generalizing e rest with
  | nil =>
    simp only [findAll, List.cons.injEq] at h
    rw [replaceFirst, h.1]
  | cons t ts ih =>
    obtain ⟨tg, a, x, cs, tl⟩ := e
    simp only [findAll, replaceFirst, Elem.children] at h ⊢
    rw [replaceChild_same new t ts ih cs rest h]; rfl

theorem lineToks_flatten (d : Doc) : d.lineToks.flatten = d.allTokens.map d.tok := by
  simp only [Doc.lineToks, Doc.allTokens]
  induction d.lines with
  | nil => rfl
  | cons l ls ih => simp [ih]

theorem deepBegin_shallow (cc : CharClass) (mapping : Dict Str) (toks : List Tok)
    (h : ∀ t ∈ toks, blank cc t = false → (mainPath mapping t).length ≤ 1) (prev : Option Str) (begun : List (Option Str)) :
    NestedMarked cc mapping prev begun toks := by
  induction toks generalizing prev begun with
  | nil => trivial
  | cons t ts ih =>
    rw [NestedMarked]
    have ih' := fun p b => ih (fun u hu => h u (by simp [hu])) p b
    split
    · exact ih' _ _
    · next hb => exact ⟨fun _ => .inl (h t (by simp) (by rw [← Bool.not_eq_true]; exact hb)), ih' _ _⟩

end Verif
