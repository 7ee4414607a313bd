/-
Matches of regular expressions as parts of a text: `r.Fits cc u x v` is that `r` matches `x` between `u` and `v`.
-/
import Verif.Lemmas.Regex
import Verif.Spec.JatsPatterns

namespace Verif
open Spec

/-- The expression matches `x` in the text `u ++ x ++ v`. -/
def Re.Fits (cc : CharClass) (r : Re) (u x v : Str) : Prop := r.Den cc (u ++ x ++ v) u.length (u.length + x.length)

/-- Each position is the end of a start of the text. -/
theorem split_at {s : Str} {i j : Nat} (h : i ≤ j) (hj : j ≤ s.length) :
    ∃ u x v, s = u ++ x ++ v ∧ i = u.length ∧ j = u.length + x.length := by
  refine ⟨s.take i, (s.take j).drop i, s.drop j, ?_, ?_, ?_⟩
  · have h1 : s.take i = (s.take j).take i := by rw [List.take_take, Nat.min_eq_left h]
    rw [h1, List.take_append_drop, List.take_append_drop]
  · rw [List.length_take]; omega
  · simp only [List.length_drop, List.length_take]; omega

theorem Re.fits_seq {cc : CharClass} {a b : Re} {u x v : Str} :
    (Re.seq a b).Fits cc u x v ↔ ∃ y z, x = y ++ z ∧ a.Fits cc u y (z ++ v) ∧ b.Fits cc (u ++ y) z v := by
  unfold Re.Fits
  constructor
  · rintro ⟨k, h1, h2⟩
    have b1 := h1.bounds (by simp)
    have b2 := h2.bounds b1.2
    obtain ⟨y, z, hyz, hk⟩ : ∃ y z, x = y ++ z ∧ k = u.length + y.length := by
      refine ⟨x.take (k - u.length), x.drop (k - u.length), (List.take_append_drop _ _).symm, ?_⟩
      rw [List.length_take]; omega
    subst hyz hk
    refine ⟨y, z, rfl, by simpa using h1, ?_⟩
    simpa [Nat.add_assoc] using h2
  · rintro ⟨y, z, rfl, h1, h2⟩
    refine ⟨u.length + y.length, by simpa using h1, ?_⟩
    simpa [Nat.add_assoc] using h2

theorem Re.fits_alt {cc : CharClass} {a b : Re} {u x v : Str} : (Re.alt a b).Fits cc u x v ↔ a.Fits cc u x v ∨ b.Fits cc u x v := .rfl

theorem Re.fits_empty {cc : CharClass} {u x v : Str} : Re.empty.Fits cc u x v ↔ x = [] := by
  unfold Re.Fits Re.Den
  rw [← List.length_eq_zero_iff]
  omega

theorem Re.fits_chr {cc : CharClass} {p : Char → Bool} {u x v : Str} : (Re.chr p).Fits cc u x v ↔ ∃ c, x = [c] ∧ p c = true := by
  unfold Re.Fits Re.Den
  constructor
  · rintro ⟨c, h1, h2, h3⟩
    match x, h3 with
    | [d], _ =>
      simp at h1
      exact ⟨d, rfl, by rw [h1]; exact h2⟩
    | [], h3 => simp at h3
    | _ :: _ :: _, h3 => simp at h3
  · rintro ⟨c, rfl, h⟩
    exact ⟨c, by simp, h, by simp⟩

theorem Re.fits_bol {cc : CharClass} {u x v : Str} : Re.bol.Fits cc u x v ↔ u = [] ∧ x = [] := by
  unfold Re.Fits Re.Den
  rw [← List.length_eq_zero_iff, ← List.length_eq_zero_iff (l := x)]
  omega

theorem Re.fits_eol {cc : CharClass} {u x v : Str} : Re.eol.Fits cc u x v ↔ x = [] ∧ (v = [] ∨ v = ['\n']) := by
  unfold Re.Fits Re.Den
  constructor
  · rintro ⟨h, hx⟩
    have hx : x = [] := List.length_eq_zero_iff.1 (by omega)
    subst hx
    refine ⟨rfl, ?_⟩
    match v, h with
    | [], _ => exact .inl rfl
    | [c], h => simp at h; exact .inr (by rw [h])
    | _ :: _ :: _, h => simp at h
  · rintro ⟨rfl, rfl | rfl⟩
    · simp
    · simp

/-- Whether a text ends with a word character. -/
def endsInWord (cc : CharClass) (u : Str) : Bool := (u.getLast?.map cc.isWord).getD false

/-- Whether a text starts with a word character. -/
def startsInWord (cc : CharClass) (v : Str) : Bool := (v.head?.map cc.isWord).getD false

theorem Re.fits_wordB {cc : CharClass} {u x v : Str} : Re.wordB.Fits cc u x v ↔ x = [] ∧ endsInWord cc u ≠ startsInWord cc v := by
  unfold Re.Fits Re.Den
  have key : boundaryAt cc (u ++ v) u.length = true ↔ endsInWord cc u ≠ startsInWord cc v := by
    have h1 : (u.length != 0 && wordAt cc (u ++ v) (u.length - 1)) = endsInWord cc u := by
      unfold wordAt endsInWord
      cases hu : u with
      | nil => rfl
      | cons c l =>
        rw [← hu]
        have hl : 0 < u.length := by rw [hu]; simp
        rw [List.getElem?_append_left (by omega), List.getLast?_eq_getElem?]
        have : (u.length != 0) = true := bne_iff_ne.2 (by omega)
        rw [this, Bool.true_and]
    have h2 : wordAt cc (u ++ v) u.length = startsInWord cc v := by
      unfold wordAt startsInWord
      rw [List.getElem?_append_right (Nat.le_refl _), Nat.sub_self, List.head?_eq_getElem?]
    unfold boundaryAt
    rw [h1, h2, bne_iff_ne]
  constructor
  · rintro ⟨h, hx⟩
    have hx : x = [] := List.length_eq_zero_iff.1 (by omega)
    subst hx
    rw [List.append_nil] at h
    exact ⟨rfl, key.1 h⟩
  · rintro ⟨rfl, h⟩
    rw [List.append_nil]
    exact ⟨key.2 h, by simp⟩

/-- `n` times in a row. -/
def FitsTimes (F : Str → Str → Str → Prop) : Nat → Str → Str → Str → Prop
  | 0, _, x, _ => x = []
  | n + 1, u, x, v => ∃ y z, x = y ++ z ∧ y ≠ [] ∧ F u y (z ++ v) ∧ FitsTimes F n (u ++ y) z v

theorem stepsTo_fits {cc : CharClass} {a : Re} : ∀ (n : Nat) (u x v : Str),
    StepsTo (a.Den cc (u ++ x ++ v)) n u.length (u.length + x.length) ↔ FitsTimes (a.Fits cc) n u x v := by
  intro n
  induction n with
  | zero =>
    intro u x v
    simp only [StepsTo, FitsTimes]
    rw [← List.length_eq_zero_iff]
    omega
  | succ n ih =>
    intro u x v
    simp only [StepsTo, FitsTimes]
    constructor
    · rintro ⟨k, h0, h1, h2⟩
      have b1 := h1.bounds (by simp)
      have b2 := stepsTo_bounds (fun i k hi (h : a.Den cc _ i k) => h.bounds hi) n _ _ b1.2 h2
      obtain ⟨y, z, hyz, hk⟩ : ∃ y z, x = y ++ z ∧ k = u.length + y.length := by
        refine ⟨x.take (k - u.length), x.drop (k - u.length), (List.take_append_drop _ _).symm, ?_⟩
        rw [List.length_take]; omega
      subst hyz hk
      refine ⟨y, z, rfl, fun h => by rw [h] at h0; simp at h0, by unfold Re.Fits; simpa using h1, ?_⟩
      rw [← ih]
      simpa [Nat.add_assoc] using h2
    · rintro ⟨y, z, rfl, h0, h1, h2⟩
      have := List.length_pos_iff.2 h0
      refine ⟨u.length + y.length, by omega, by unfold Re.Fits at h1; simpa using h1, ?_⟩
      rw [← ih] at h2
      simpa [Nat.add_assoc] using h2

theorem Re.fits_rep {cc : CharClass} {a : Re} {lo : Nat} {hi : Option Nat} {g : Bool} {u x v : Str} :
    (Re.rep a lo hi g).Fits cc u x v ↔ ∃ n, lo ≤ n ∧ (∀ h, hi = some h → n ≤ h) ∧ FitsTimes (a.Fits cc) n u x v := by
  show (∃ n, lo ≤ n ∧ (∀ h, hi = some h → n ≤ h) ∧ StepsTo (a.Den cc (u ++ x ++ v)) n u.length (u.length + x.length)) ↔ _
  simp only [stepsTo_fits]

theorem fitsTimes_chr {cc : CharClass} {p : Char → Bool} : ∀ (n : Nat) (u x v : Str),
    FitsTimes ((Re.chr p).Fits cc) n u x v ↔ x.length = n ∧ ∀ c ∈ x, p c = true := by
  intro n
  induction n with
  | zero =>
    intro u x v
    simp only [FitsTimes]
    constructor
    · rintro rfl; exact ⟨rfl, fun c h => nomatch h⟩
    · rintro ⟨h, _⟩; exact List.length_eq_zero_iff.1 h
  | succ n ih =>
    intro u x v
    simp only [FitsTimes, ih, Re.fits_chr]
    constructor
    · rintro ⟨y, z, rfl, _, ⟨c, rfl, hc⟩, h1, h2⟩
      refine ⟨by simp [h1], fun d hd => ?_⟩
      rcases List.mem_cons.1 hd with rfl | hd
      · exact hc
      · exact h2 d hd
    · rintro ⟨h1, h2⟩
      match x, h1 with
      | c :: z, h1 =>
        exact ⟨[c], z, rfl, by simp, ⟨c, rfl, h2 c List.mem_cons_self⟩, by simpa using h1, fun d hd => h2 d (List.mem_cons_of_mem _ hd)⟩

theorem Re.fits_rep_chr {cc : CharClass} {p : Char → Bool} {lo : Nat} {hi : Option Nat} {g : Bool} {u x v : Str} :
    (Re.rep (.chr p) lo hi g).Fits cc u x v ↔ lo ≤ x.length ∧ (∀ h, hi = some h → x.length ≤ h) ∧ ∀ c ∈ x, p c = true := by
  rw [Re.fits_rep]
  simp only [fitsTimes_chr]
  constructor
  · rintro ⟨n, h1, h2, rfl, h3⟩; exact ⟨h1, h2, h3⟩
  · rintro ⟨h1, h2, h3⟩; exact ⟨x.length, h1, h2, rfl, h3⟩

theorem Re.fits_star {cc : CharClass} {p : Char → Bool} {u x v : Str} : (Re.star p).Fits cc u x v ↔ ∀ c ∈ x, p c = true := by
  unfold Re.star
  rw [Re.fits_rep_chr]
  exact ⟨fun h => h.2.2, fun h => ⟨Nat.zero_le _, fun _ e => (nomatch e), h⟩⟩

theorem Re.fits_plus {cc : CharClass} {p : Char → Bool} {u x v : Str} : (Re.plus p).Fits cc u x v ↔ x ≠ [] ∧ ∀ c ∈ x, p c = true := by
  unfold Re.plus
  rw [Re.fits_rep_chr, ← List.length_pos_iff]
  exact ⟨fun h => ⟨h.1, h.2.2⟩, fun h => ⟨h.1, fun _ e => (nomatch e), h.2⟩⟩

theorem Re.fits_opt {cc : CharClass} {a : Re} {u x v : Str} (ha : ¬ a.Fits cc u [] (x ++ v)) :
    (Re.opt a).Fits cc u x v ↔ x = [] ∨ a.Fits cc u x v := by
  unfold Re.opt
  rw [Re.fits_rep]
  constructor
  · rintro ⟨n, _, h, h1⟩
    have hn := h 1 rfl
    match n, hn, h1 with
    | 0, _, h1 => exact .inl h1
    | 1, _, ⟨y, z, h1, _, h2, h3⟩ =>
      have h3 : z = [] := h3
      subst h3
      rw [List.append_nil] at h1
      subst h1
      exact .inr (by simpa using h2)
  · rintro (rfl | h)
    · exact ⟨0, Nat.le_refl 0, fun _ _ => Nat.zero_le _, rfl⟩
    · refine ⟨1, Nat.zero_le _, fun h e => (by cases e; exact Nat.le_refl 1), x, [], by simp, fun hx => ?_, by simpa using h, rfl⟩
      subst hx
      exact ha (by simpa using h)

theorem sameLetters_exactly : ∀ (s t : Str), SameLetters exactly s t ↔ s = t
  | [], [] => by simp [SameLetters]
  | [], _ :: _ => by simp [SameLetters]
  | _ :: _, [] => by simp [SameLetters]
  | a :: s, b :: t => by simp [SameLetters, exactly, sameLetters_exactly s t]

theorem sameLetters_length {same : Char → Char → Bool} : ∀ {s t : Str}, SameLetters same s t → t.length = s.length
  | [], [], _ => rfl
  | _ :: _, _ :: _, h => by simp [sameLetters_length h.2]

theorem Re.fits_lit {cc : CharClass} {same : Char → Char → Bool} : ∀ {t u x v : Str}, (Re.lit same t).Fits cc u x v ↔ SameLetters same t x := by
  intro t
  induction t with
  | nil =>
    intro u x v
    simp only [Re.lit, Re.fits_empty]
    cases x <;> simp [SameLetters]
  | cons c t ih =>
    intro u x v
    simp only [Re.lit, Re.fits_seq, Re.fits_chr, ih]
    constructor
    · rintro ⟨y, z, rfl, ⟨d, rfl, h⟩, h2⟩; exact ⟨h, h2⟩
    · intro h
      match x, h with
      | d :: x, h => exact ⟨[d], x, rfl, ⟨d, rfl, h.1⟩, h.2⟩

/-- The pattern matches `y ++ x ++ z` between `u` and `v`, with the group `x`. -/
def Pattern.Fits (cc : CharClass) (p : Pattern) (u y x z v : Str) : Prop :=
  p.pre.Fits cc u y (x ++ z ++ v) ∧ p.grp.Fits cc (u ++ y) x (z ++ v) ∧ p.post.Fits cc (u ++ y ++ x) z v

theorem Pattern.den_iff {cc : CharClass} {p : Pattern} {u y x z v : Str} :
    p.Den cc (u ++ y ++ x ++ z ++ v) u.length (u.length + y.length) (u.length + y.length + x.length)
      (u.length + y.length + x.length + z.length) ↔ p.Fits cc u y x z v := by
  unfold Pattern.Den Pattern.Fits Re.Fits
  simp only [List.append_assoc, List.length_append, Nat.add_assoc]

theorem Pattern.den_split {cc : CharClass} {p : Pattern} {s : Str} {i a b j : Nat} (hi : i ≤ s.length) (h : p.Den cc s i a b j) :
    ∃ u y x z v, s = u ++ y ++ x ++ z ++ v ∧ i = u.length ∧ a = u.length + y.length ∧ b = u.length + y.length + x.length ∧
      p.Fits cc u y x z v := by
  have b1 := h.1.bounds hi
  have b2 := h.2.1.bounds b1.2
  have b3 := h.2.2.bounds b2.2
  obtain ⟨w, z, v, rfl, e1, e2⟩ := split_at b3.1 b3.2
  obtain ⟨w', x, t, e3, e4, e5⟩ := split_at (s := w) b2.1 (by omega)
  have ht : t = [] := by
    have := congrArg List.length e3
    simp only [List.length_append] at this
    exact List.length_eq_zero_iff.1 (by omega)
  subst ht e3
  obtain ⟨u, y, t, e6, e7, e8⟩ := split_at (s := w') b1.1 (by omega)
  have ht : t = [] := by
    have := congrArg List.length e6
    simp only [List.length_append] at this
    exact List.length_eq_zero_iff.1 (by omega)
  subst ht e6
  simp only [List.append_nil, List.length_append] at *
  subst e7
  have e4' : a = u.length + y.length := by omega
  subst e4'
  have e5' : b = u.length + y.length + x.length := by omega
  subst e5'
  have e2' : j = u.length + y.length + x.length + z.length := by omega
  subst e2'
  exact ⟨u, y, x, z, v, rfl, rfl, rfl, rfl, Pattern.den_iff.1 h⟩

/-- Nothing is found exactly if the pattern matches no part of the text. -/
theorem Pattern.search_none_iff {cc : CharClass} {p : Pattern} {s : Str} :
    p.search cc s = none ↔ ∀ u y x z v, s = u ++ y ++ x ++ z ++ v → ¬ p.Fits cc u y x z v := by
  rw [Pattern.search_none]
  constructor
  · rintro h u y x z v rfl hf
    exact h _ _ _ _ (by simp) (Pattern.den_iff.2 hf)
  · intro h i a b j hi hd
    obtain ⟨u, y, x, z, v, e, _, _, _, hf⟩ := Pattern.den_split hi hd
    exact h u y x z v e hf

/-- What is found is a match, and no match starts earlier. -/
theorem Pattern.search_fits {cc : CharClass} {p : Pattern} {s : Str} {a b : Nat} (h : p.search cc s = some (a, b)) :
    ∃ u y x z v, s = u ++ y ++ x ++ z ++ v ∧ a = u.length + y.length ∧ b = u.length + y.length + x.length ∧
      p.Fits cc u y x z v ∧ (p.all cc s u.length).head? = some (a, b) ∧
      ∀ u' y' x' z' v', s = u' ++ y' ++ x' ++ z' ++ v' → p.Fits cc u' y' x' z' v' → u.length ≤ u'.length := by
  obtain ⟨i, j, hi, hd, hh, hm⟩ := Pattern.search_some h
  obtain ⟨u, y, x, z, v, e, e1, e2, e3, hf⟩ := Pattern.den_split hi hd
  refine ⟨u, y, x, z, v, e, e2, e3, hf, by rw [← e1]; exact hh, fun u' y' x' z' v' e' hf' => ?_⟩
  rw [← e1]
  refine hm u'.length _ _ _ ?_ (by rw [e']; exact Pattern.den_iff.2 hf')
  rw [e']
  simp

/-! ### The order of the matches -/

/-- At most one match from each position. -/
def Re.Single (cc : CharClass) (r : Re) : Prop := ∀ s i, (r.run cc s i).length ≤ 1

/-- Longer matches come first. -/
def Re.LongestFirst (cc : CharClass) (r : Re) : Prop := ∀ s i, (r.run cc s i).Pairwise (fun a b => b < a)

/-- Shorter matches come first. -/
def Re.ShortestFirst (cc : CharClass) (r : Re) : Prop := ∀ s i, (r.run cc s i).Pairwise (fun a b => a < b)

theorem flatMap_single {α : Type _} {β : Type _} {l : List α} (h : l.length ≤ 1) (f : α → List β) : l.flatMap f = [] ∨ ∃ a ∈ l, l.flatMap f = f a := by
  match l, h with
  | [], _ => exact .inl rfl
  | [a], _ => exact .inr ⟨a, List.mem_singleton.2 rfl, by simp⟩

theorem Re.single_chr {cc : CharClass} {p : Char → Bool} : (Re.chr p).Single cc := by
  intro s i
  simp only [Re.run]
  split
  · split <;> simp
  · simp

theorem Re.single_seq {cc : CharClass} {a b : Re} (ha : a.Single cc) (hb : b.Single cc) : (Re.seq a b).Single cc := by
  intro s i
  simp only [Re.run]
  rcases flatMap_single (ha s i) (b.run cc s) with h | ⟨k, _, h⟩
  · rw [h]; simp
  · rw [h]; exact hb s k

theorem Re.single_lit {cc : CharClass} {same : Char → Char → Bool} : ∀ t : Str, (Re.lit same t).Single cc
  | [] => fun _ _ => Nat.le_refl 1
  | _ :: t => Re.single_seq Re.single_chr (Re.single_lit t)

theorem Re.longest_seq {cc : CharClass} {a b : Re} (ha : a.Single cc) (hb : b.LongestFirst cc) : (Re.seq a b).LongestFirst cc := by
  intro s i
  simp only [Re.run]
  rcases flatMap_single (ha s i) (b.run cc s) with h | ⟨k, _, h⟩
  · rw [h]; exact .nil
  · rw [h]; exact hb s k

/-- The order of the ends of a repetition. -/
def matchOrder (g : Bool) (a b : Nat) : Prop := bif g then b < a else a < b

theorem repRun_order {cc : CharClass} {a : Re} (ha : a.Single cc) {s : Str} {g : Bool} : ∀ (fuel lo : Nat) (hi : Option Nat) (i : Nat),
    (repRun (a.run cc s) g fuel lo hi i).Pairwise (matchOrder g) ∧
      ∀ j ∈ repRun (a.run cc s) g fuel lo hi i, i ≤ j := by
  intro fuel
  induction fuel with
  | zero =>
    intro lo hi i
    simp only [repRun]
    split <;> simp
  | succ fuel ih =>
    intro lo hi i
    simp only [repRun]
    generalize hmore : (if hi = some 0 then ([] : List Nat) else _) = more
    have hm : more.Pairwise (matchOrder g) ∧ ∀ j ∈ more, i < j := by
      subst hmore
      split
      · exact ⟨.nil, fun j h => nomatch h⟩
      · have hle : ((a.run cc s i).filter (fun k => decide (i < k))).length ≤ 1 :=
          Nat.le_trans (List.length_filter_le _ _) (ha s i)
        rcases flatMap_single hle (repRun (a.run cc s) g fuel (lo - 1) (hi.map (· - 1))) with h | ⟨k, hk, h⟩
        · rw [h]; exact ⟨.nil, fun j h => nomatch h⟩
        · rw [h]
          have hik : i < k := of_decide_eq_true (List.mem_filter.1 hk).2
          exact ⟨(ih _ _ k).1, fun j hj => Nat.lt_of_lt_of_le hik ((ih _ _ k).2 j hj)⟩
    split
    · exact ⟨hm.1, fun j hj => Nat.le_of_lt (hm.2 j hj)⟩
    · cases g with
      | true =>
        simp only [if_true]
        refine ⟨List.pairwise_append.2 ⟨hm.1, List.pairwise_singleton _ _, fun a ha b hb => ?_⟩, fun j hj => ?_⟩
        · rw [List.mem_singleton.1 hb]; exact hm.2 a ha
        · rcases List.mem_append.1 hj with h | h
          · exact Nat.le_of_lt (hm.2 j h)
          · exact Nat.le_of_eq (List.mem_singleton.1 h).symm
      | false =>
        simp only [Bool.false_eq_true, if_false]
        refine ⟨List.pairwise_cons.2 ⟨hm.2, hm.1⟩, fun j hj => ?_⟩
        rcases List.mem_cons.1 hj with h | h
        · exact Nat.le_of_eq h.symm
        · exact Nat.le_of_lt (hm.2 j h)

theorem Re.longest_rep {cc : CharClass} {p : Char → Bool} {lo : Nat} {hi : Option Nat} : (Re.rep (.chr p) lo hi true).LongestFirst cc :=
  fun s i => (repRun_order Re.single_chr (g := true) (s.length + 1 - i) lo hi i).1

theorem Re.longest_opt {cc : CharClass} {a : Re} (ha : a.Single cc) : (Re.opt a).LongestFirst cc :=
  fun s i => (repRun_order ha (g := true) (s.length + 1 - i) 0 (some 1) i).1

theorem Re.single_wordB {cc : CharClass} : Re.wordB.Single cc := by
  intro s i
  simp only [Re.run]
  split <;> simp

theorem Re.shortest_rep {cc : CharClass} {p : Char → Bool} {lo : Nat} {hi : Option Nat} : (Re.rep (.chr p) lo hi false).ShortestFirst cc :=
  fun s i => (repRun_order Re.single_chr (g := false) (s.length + 1 - i) lo hi i).1

theorem head_flatMap {α β : Type _} {l : List α} {f : α → List β} {b : β} (h : (l.flatMap f).head? = some b) :
    ∃ l₁ a l₂, l = l₁ ++ a :: l₂ ∧ (f a).head? = some b ∧ ∀ x ∈ l₁, f x = [] := by
  induction l with
  | nil => cases h
  | cons a l ih =>
    rw [List.flatMap_cons, List.head?_append] at h
    cases ha : (f a).head? with
    | some b' =>
      rw [ha] at h
      cases h
      exact ⟨[], a, l, rfl, ha, fun x hx => (nomatch hx)⟩
    | none =>
      rw [ha] at h
      obtain ⟨l₁, a', l₂, h1, h2, h3⟩ := ih h
      refine ⟨a :: l₁, a', l₂, by rw [h1]; rfl, h2, fun x hx => ?_⟩
      rcases List.mem_cons.1 hx with rfl | hx
      · exact List.head?_eq_none_iff.1 ha
      · exact h3 x hx

theorem head_greatest {l : List Nat} (h : l.Pairwise (fun a b => b < a)) {a b : Nat} (ha : l.head? = some a) (hb : b ∈ l) : b ≤ a := by
  cases l with
  | nil => cases ha
  | cons x l =>
    cases ha
    rcases List.mem_cons.1 hb with rfl | hb
    · exact Nat.le_refl _
    · exact Nat.le_of_lt ((List.pairwise_cons.1 h).1 b hb)

/-- Among the matches with the same start of the group the first one has the longest group. -/
theorem Pattern.longest_group {cc : CharClass} {p : Pattern} (hg : p.grp.LongestFirst cc) {s : Str} {i a b : Nat} (hi : i ≤ s.length)
    (hh : (p.all cc s i).head? = some (a, b)) {b' j : Nat} (hd : p.Den cc s i a b' j) : b' ≤ b := by
  obtain ⟨l₁, k, l₂, _, h1, _⟩ := head_flatMap hh
  obtain ⟨m₁, l, m₂, e, h2, h3⟩ := head_flatMap h1
  have hkl : (k, l) = (a, b) := by
    cases hp : p.post.run cc s l with
    | nil => rw [hp] at h2; cases h2
    | cons x r => rw [hp] at h2; exact Option.some.inj h2
  obtain ⟨rfl, rfl⟩ := Prod.mk.inj hkl
  have hk := (hd.1.bounds hi).2
  have hb := (hd.2.1.bounds hk).2
  have hm := (Re.mem_run hk).2 hd.2.1
  rw [e] at hm
  have hdesc := hg s k
  rw [e] at hdesc
  rcases List.mem_append.1 hm with hm | hm
  · have := h3 b' hm
    rw [List.map_eq_nil_iff] at this
    have hj := (Re.mem_run hb).2 hd.2.2
    rw [this] at hj
    cases hj
  · rcases List.mem_cons.1 hm with rfl | hm
    · exact Nat.le_refl _
    · exact Nat.le_of_lt ((List.pairwise_cons.1 (List.pairwise_append.1 hdesc).2.1).1 b' hm)

/-- The first match has the longest text before the group, among those from the same position. -/
theorem Pattern.longest_pre {cc : CharClass} {p : Pattern} (hg : p.pre.LongestFirst cc) {s : Str} {i a b : Nat} (hi : i ≤ s.length)
    (hh : (p.all cc s i).head? = some (a, b)) {a' b' j : Nat} (hd : p.Den cc s i a' b' j) : a' ≤ a := by
  obtain ⟨l₁, k, l₂, e, h1, h3⟩ := head_flatMap hh
  obtain ⟨m₁, l, m₂, _, h2, _⟩ := head_flatMap h1
  have hkl : (k, l) = (a, b) := by
    cases hp : p.post.run cc s l with
    | nil => rw [hp] at h2; cases h2
    | cons x r => rw [hp] at h2; exact Option.some.inj h2
  obtain ⟨rfl, rfl⟩ := Prod.mk.inj hkl
  have hk := (hd.1.bounds hi).2
  have hb := (hd.2.1.bounds hk).2
  have hm := (Re.mem_run hi).2 hd.1
  rw [e] at hm
  have hdesc := hg s i
  rw [e] at hdesc
  rcases List.mem_append.1 hm with hm | hm
  · have := h3 a' hm
    rw [List.flatMap_eq_nil_iff] at this
    have := this b' ((Re.mem_run hk).2 hd.2.1)
    rw [List.map_eq_nil_iff] at this
    have hj := (Re.mem_run hb).2 hd.2.2
    rw [this] at hj
    cases hj
  · rcases List.mem_cons.1 hm with rfl | hm
    · exact Nat.le_refl _
    · exact Nat.le_of_lt ((List.pairwise_cons.1 (List.pairwise_append.1 hdesc).2.1).1 a' hm)

end Verif
