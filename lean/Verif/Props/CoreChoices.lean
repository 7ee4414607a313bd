/-
C89 for lists of texts.
-/
import Verif.Spec.CoreChoices
import Verif.Props.CoreMatching

namespace Verif
open Spec

theorem foldl_max_le : ∀ (ns : List Nat) (n : Nat), n ≤ ns.foldl max n
  | [], _ => Nat.le_refl _
  | m :: ns, n => Nat.le_trans (Nat.le_max_left n m) (foldl_max_le ns (max n m))

theorem foldl_max_cons : ∀ (ns : List Nat) (n m : Nat), ns.foldl max (max n m) = max n (ns.foldl max m)
  | [], _, _ => rfl
  | k :: ns, n, m => by rw [List.foldl_cons, List.foldl_cons, Nat.max_assoc, foldl_max_cons ns n]

theorem mostUsed_some : ∀ (ns : List Nat) (n : Nat), mostUsed (some n :: ns.map some) = some (ns.foldl max n)
  | [], n => by simp [mostUsed]
  | m :: ns, n => by
    have := mostUsed_some ns m
    rw [List.map_cons, mostUsed, this, Option.map_some, List.foldl_cons, foldl_max_cons]

theorem afterCalls_cursors : ∀ (calls : List ListCall) (c : Choices),
    (afterCalls c calls).cur = c.cur + linesTaken calls ∧
      (afterCalls c calls).nxt = c.nxt + linesTaken calls + linesSkipped calls
  | [], c => ⟨rfl, rfl⟩
  | x :: calls, c => by
    obtain ⟨h1, h2⟩ := afterCalls_cursors calls (c.after x.doc (some x.first :: x.others.map some))
    have e1 : (c.after x.doc (some x.first :: x.others.map some)).cur = c.cur + x.first := rfl
    have e2 : (c.after x.doc (some x.first :: x.others.map some)).nxt = c.nxt + x.most := by
      unfold Choices.after
      simp only [mostUsed_some]
      rfl
    have hle : x.first ≤ x.most := foldl_max_le _ _
    have e3 : afterCalls c (x :: calls) = afterCalls (c.after x.doc (some x.first :: x.others.map some)) calls := rfl
    have e4 : linesTaken (x :: calls) = x.first + linesTaken calls := rfl
    have e5 : linesSkipped (x :: calls) = x.most - x.first + linesSkipped calls := rfl
    rw [e3, h1, h2, e1, e2, e4, e5]
    omega

theorem pairUp_getElem? : ∀ (l m : List CoreSeq) (k : Nat), (pairUp l m)[k]? = l[k]?.map (fun x => (x, m[k]?))
  | [], _, _ => by simp [pairUp]
  | x :: l, m, 0 => by simp [pairUp, List.head?_eq_getElem?]
  | x :: l, m, k + 1 => by
    rw [pairUp, List.getElem?_cons_succ, List.getElem?_cons_succ, pairUp_getElem? l m.tail k, List.getElem?_tail]

/-- **C89.** Which lines are compared together when the search for a list of texts goes on: each line that is left (those looked at
for the first text are gone) is compared together with the line after it, or, if more lines have been looked at for another text
than for the first one, with one as many lines further down. -/
theorem C89_exact (pending : List CoreSeq) (calls : List ListCall) (d : Doc) :
    let c := afterCalls ⟨[], pending, 0, 1⟩ calls
    ∀ k, (c.pairs d)[k]? = ((c.all d)[linesTaken calls + k]?).map
      (fun x => (x, (c.all d)[linesTaken calls + k + 1 + linesSkipped calls]?)) := by
  intro c k
  obtain ⟨h1, h2⟩ := afterCalls_cursors calls ⟨[], pending, 0, 1⟩
  unfold Choices.pairs
  rw [pairUp_getElem?, List.getElem?_drop, List.getElem?_drop, h1, h2]
  have e1 : (0 : Nat) + linesTaken calls = linesTaken calls := Nat.zero_add _
  have e2 : 1 + linesTaken calls + linesSkipped calls + k = linesTaken calls + k + 1 + linesSkipped calls := by omega
  simp only [e1, e2]

/-- **C89.** Each line is compared together with the line after it if and only if in no call more lines have been looked at for another
text than for the first one, or there is at most one line left. -/
theorem C89_neighbours_iff (pending : List CoreSeq) (calls : List ListCall) (d : Doc) :
    let c := afterCalls ⟨[], pending, 0, 1⟩ calls
    c.pairs d = withNext ((c.all d).drop (linesTaken calls)) ↔
      (∀ x ∈ calls, ∀ n ∈ x.others, n ≤ x.first) ∨ (c.all d).length ≤ linesTaken calls + 1 := by
  intro c
  have hw : ∀ l : List CoreSeq, pairUp l l.tail = withNext l := by
    intro l
    induction l with
    | nil => rfl
    | cons x l ih => simp only [pairUp, withNext, List.tail_cons, ih]
  have hx := C89_exact pending calls d
  change ∀ k, (c.pairs d)[k]? = ((c.all d)[linesTaken calls + k]?).map
    (fun x => (x, (c.all d)[linesTaken calls + k + 1 + linesSkipped calls]?)) at hx
  have hn : ∀ k, (withNext ((c.all d).drop (linesTaken calls)))[k]? =
      ((c.all d)[linesTaken calls + k]?).map (fun x => (x, (c.all d)[linesTaken calls + k + 1]?)) := by
    intro k
    rw [← hw, pairUp_getElem?, List.getElem?_tail, List.getElem?_drop, List.getElem?_drop]
    rfl
  have hz : (∀ x ∈ calls, ∀ n ∈ x.others, n ≤ x.first) ↔ linesSkipped calls = 0 := by
    have h1 : ∀ (ns : List Nat) (m : Nat), ns.foldl max m - m = 0 ↔ ∀ n ∈ ns, n ≤ m := by
      intro ns
      induction ns with
      | nil => intro m; simp
      | cons a ns ih =>
        intro m
        rw [List.foldl_cons]
        have := foldl_max_le ns (max m a)
        have ih' := ih (max m a)
        constructor
        · intro h n hn
          have ha : max m a = m := by omega
          rw [ha] at ih'
          rcases List.mem_cons.1 hn with rfl | hn
          · omega
          · exact ih'.1 (by rw [ha] at h; exact h) n hn
        · intro h
          have ha : max m a = m := by have := h a List.mem_cons_self; omega
          rw [ha] at ih' ⊢
          exact ih'.2 fun n hn => h n (List.mem_cons_of_mem _ hn)
    clear hx hn
    clear c
    induction calls with
    | nil => simp [linesSkipped]
    | cons x calls ih =>
      have e : linesSkipped (x :: calls) = x.most - x.first + linesSkipped calls := rfl
      rw [e, Nat.add_eq_zero_iff, List.forall_mem_cons]
      exact and_congr (h1 _ _).symm ih
  rw [hz]
  constructor
  · intro h
    rcases Nat.eq_zero_or_pos (linesSkipped calls) with h0 | h0
    · exact .inl h0
    · right
      refine Nat.le_of_not_lt fun hlt => ?_
      have e := hx ((c.all d).length - linesTaken calls - 2)
      rw [h, hn] at e
      have k1 : linesTaken calls + ((c.all d).length - linesTaken calls - 2) < (c.all d).length := by omega
      have k2 : linesTaken calls + ((c.all d).length - linesTaken calls - 2) + 1 < (c.all d).length := by omega
      rw [List.getElem?_eq_getElem k1, List.getElem?_eq_getElem k2, List.getElem?_eq_none (by omega)] at e
      cases e
  · intro h
    apply List.ext_getElem?
    intro k
    rw [hx, hn]
    rcases h with h | h
    · rw [h]
    · cases k with
      | zero =>
        rw [List.getElem?_eq_none (by omega : (c.all d).length ≤ linesTaken calls + 0 + 1 + linesSkipped calls),
          List.getElem?_eq_none (by omega : (c.all d).length ≤ linesTaken calls + 0 + 1)]
      | succ k =>
        rw [List.getElem?_eq_none (by omega : (c.all d).length ≤ linesTaken calls + (k + 1))]
        rfl

/-- **C89.** After a call which has not found one of the texts, every line that is left is compared alone. -/
theorem C89_alone (c : Choices) (d1 : Doc) (used : List (Option Nat)) (hu : none ∈ used)
    (later : List (Doc × List (Option Nat))) (d : Doc) :
    let c' := later.foldl (fun c x => c.after x.1 x.2) (c.after d1 used)
    c'.pairs d = ((c'.all d).drop c'.cur).map (fun x => (x, none)) := by
  intro c'
  have hm : ∀ us : List (Option Nat), none ∈ us → mostUsed us = none := by
    intro us
    induction us with
    | nil => intro h; cases h
    | cons u us ih =>
      intro h
      cases u with
      | none => rfl
      | some n =>
        have : none ∈ us := by simpa using h
        rw [mostUsed, ih this]
        rfl
  have key : c'.rest = [] ∧ c'.made.length ≤ c'.nxt := by
    have start : (c.after d1 used).rest = [] ∧ (c.after d1 used).made.length ≤ (c.after d1 used).nxt := by
      cases used with
      | nil => cases hu
      | cons u us =>
        have e := hm _ hu
        unfold Choices.after
        simp only [e]
        exact ⟨trivial, by show (c.all d1).length ≤ max _ _; omega⟩
    have step : ∀ (later : List (Doc × List (Option Nat))) (c : Choices), c.rest = [] ∧ c.made.length ≤ c.nxt →
        (later.foldl (fun c x => c.after x.1 x.2) c).rest = [] ∧
          (later.foldl (fun c x => c.after x.1 x.2) c).made.length ≤ (later.foldl (fun c x => c.after x.1 x.2) c).nxt := by
      intro later
      induction later with
      | nil => exact fun _ h => h
      | cons x later ih =>
        intro c h
        rw [List.foldl_cons]
        apply ih
        obtain ⟨h1, h2⟩ := h
        have hall : c.all x.1 = c.made := by unfold Choices.all; rw [h1]; simp
        unfold Choices.after
        cases x.2 with
        | nil => exact ⟨h1, h2⟩
        | cons u us =>
          simp only
          cases mostUsed (u :: us) with
          | none => exact ⟨rfl, by show (c.all x.1).length ≤ max _ _; omega⟩
          | some n =>
            simp only [h1, drawChoices]
            exact ⟨trivial, by omega⟩
    exact step later _ start
  have hlen : (c'.all d).length ≤ c'.nxt := by
    unfold Choices.all
    rw [key.1]
    simpa using key.2
  unfold Choices.pairs
  rw [List.drop_of_length_le hlen]
  generalize (c'.all d).drop c'.cur = l
  induction l with
  | nil => rfl
  | cons x l ih => rw [pairUp, List.map_cons]; exact congrArg _ ih

/-- A call looks for each text in turn: it says for each of them how many lines have been looked at. -/
theorem C89_used (env : CoreEnv) (cfg : CoreCfg) (isSub : Bool) (text : CoreSeq → Str) (pairs : List (CoreSeq × Option CoreSeq)) :
    ∀ (ss : List Str) (matched : List Nat) (found : List SeqMatch) (matched' : List Nat) (used : List (Option Nat)),
      findTexts env cfg isSub text pairs matched ss = .ok (found, matched', used) → used.length = ss.length := by
  intro ss
  induction ss with
  | nil =>
    intro matched found matched' used h
    cases h
    rfl
  | cons s ss ih =>
    intro matched found matched' used h
    unfold findTexts at h
    split at h
    · cases h
    · split at h
      · cases h
      · rename_i h2
        cases h
        simp [ih _ _ _ _ h2]

/-- A list of two texts: the first one found in the first line, the second one in the third line. Each line left is compared
together with the one three lines further down. -/
example : let c := afterCalls ⟨[], [⟨[0], 0⟩, ⟨[1], 1⟩, ⟨[2], 2⟩, ⟨[3], 3⟩, ⟨[4], 4⟩], 0, 1⟩ [⟨docOfWords [[c!"a", c!"b", c!"c", c!"d", c!"e"]], 1, [3]⟩]
    (c.pairs (docOfWords [[c!"a", c!"b", c!"c", c!"d", c!"e"]])).map (fun x => (x.1.position, x.2.map (·.position))) =
      [(1, some 4), (2, none), (3, none), (4, none)] ∧ linesTaken [⟨docOfWords [], 1, [3]⟩] = 1 ∧ linesSkipped [⟨docOfWords [], 1, [3]⟩] = 2 := by
  decide +kernel

end Verif
