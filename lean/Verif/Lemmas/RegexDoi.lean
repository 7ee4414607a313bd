/-
The search for DOIs in Model/JatsText is that of the regular expression DOI_PATTERN.
-/
import Verif.Lemmas.RegexFits
import Verif.Lemmas.JatsText
import Verif.Model.JatsPatterns

namespace Verif
open Spec

theorem digit_not {cc : CharClass} (hcc : DigitsPlain cc) : cc.isDigit '.' = false ∧ cc.isDigit '/' = false :=
  ⟨Bool.eq_false_iff.2 fun h => (hcc.digit _ h).2.1 rfl, Bool.eq_false_iff.2 fun h => (hcc.digit _ h).2.2.1 rfl⟩

/-- The part `(?:\.\d{1,})*`. -/
def dottedRe (cc : CharClass) : Re := .rep (.seq (.chr (exactly '.')) (.rep (.chr cc.isDigit) 1 none true)) 0 none true

/-- The part of DOI_PATTERN up to the slash. -/
def doiHeadRe (cc : CharClass) : Re :=
  .seq (.seq (.seq (.lit exactly c!"10.") (.rep (.chr cc.isDigit) 4 none true)) (dottedRe cc)) (.lit exactly c!"/")

theorem doiRe_run {cc : CharClass} {s : Str} {i : Nat} :
    (doiRe cc).run cc s i = ((doiHeadRe cc).run cc s i).flatMap ((Re.plus (fun c => c ≠ '\n')).run cc s) := by
  show ((Re.lit exactly c!"10.").run cc s i).flatMap (fun i => _) = _
  unfold doiHeadRe dottedRe
  simp only [Re.run, List.flatMap_assoc]
  rfl

theorem doiRest_digits {cc : CharClass} : ∀ (d r : Str) (need : Bool), (∀ c ∈ d, cc.isDigit c = true) → (need = true → d ≠ []) →
    doiRest cc need (d ++ r) = doiRest cc false r := by
  intro d
  induction d with
  | nil =>
    intro r need _ h
    cases need with
    | false => rfl
    | true => exact absurd rfl (h rfl)
  | cons c d ih =>
    intro r need hd _
    rw [List.cons_append, doiRest, if_pos (hd c List.mem_cons_self)]
    exact ih r false (fun x hx => hd x (List.mem_cons_of_mem _ hx)) (fun h => nomatch h)

theorem doiRest_dotted {cc : CharClass} (hcc : DigitsPlain cc) {m : Str} (h : Dotted cc m) (rest : Str) :
    doiRest cc false (m ++ '/' :: rest) = some rest := by
  induction h with
  | nil =>
    rw [List.nil_append, doiRest, (digit_not hcc).2]
    rfl
  | cons d m h1 h2 _ ih =>
    have : doiRest cc false ('.' :: (d ++ (m ++ '/' :: rest))) = doiRest cc true (d ++ (m ++ '/' :: rest)) := by
      rw [doiRest, (digit_not hcc).1]
      rfl
    rw [List.append_assoc, List.cons_append, this, doiRest_digits d _ true h2 (fun _ => h1), ih]

theorem dotted_of_rest {cc : CharClass} : ∀ (r rest : Str) (need : Bool), doiRest cc need r = some rest →
    ∃ d m, r = d ++ m ++ '/' :: rest ∧ (∀ c ∈ d, cc.isDigit c = true) ∧ (need = true → d ≠ []) ∧ Dotted cc m := by
  intro r
  induction r with
  | nil => intro rest need h; cases h
  | cons c r ih =>
    intro rest need h
    unfold doiRest at h
    split at h
    · next hc =>
      obtain ⟨d, m, h1, h2, _, h4⟩ := ih rest false h
      refine ⟨c :: d, m, by rw [h1]; rfl, fun x hx => ?_, fun _ => (by simp), h4⟩
      rcases List.mem_cons.1 hx with rfl | hx
      · exact hc
      · exact h2 x hx
    · split at h
      · cases h
      · next hn =>
        split at h
        · next hc =>
          obtain ⟨d, m, h1, h2, h3, h4⟩ := ih rest true h
          refine ⟨[], '.' :: d ++ m, by rw [h1, hc]; simp, fun x hx => (nomatch hx), fun h => absurd h hn, .cons d m (h3 rfl) h2 h4⟩
        · split at h
          · next hc =>
            obtain rfl := Option.some.inj h
            exact ⟨[], [], by rw [hc]; rfl, fun x hx => (nomatch hx), fun h => absurd h hn, .nil⟩
          · cases h

theorem fitsTimes_dotted {cc : CharClass} : ∀ (n : Nat) (u x v : Str),
    FitsTimes ((Re.seq (.chr (exactly '.')) (.rep (.chr cc.isDigit) 1 none true)).Fits cc) n u x v → Dotted cc x := by
  intro n
  induction n with
  | zero => intro u x v h; obtain rfl : x = [] := h; exact .nil
  | succ n ih =>
    rintro u x v ⟨y, z, rfl, _, h1, h2⟩
    obtain ⟨a, d, rfl, h3, h4⟩ := Re.fits_seq.1 h1
    obtain ⟨c, rfl, hc⟩ := Re.fits_chr.1 h3
    obtain ⟨h5, _, h6⟩ := Re.fits_rep_chr.1 h4
    obtain rfl : '.' = c := of_decide_eq_true hc
    exact .cons d z (List.length_pos_iff.1 h5) h6 (ih _ _ _ h2)

theorem dotted_fitsTimes {cc : CharClass} {x : Str} (h : Dotted cc x) : ∀ (u v : Str), ∃ n,
    FitsTimes ((Re.seq (.chr (exactly '.')) (.rep (.chr cc.isDigit) 1 none true)).Fits cc) n u x v := by
  induction h with
  | nil => intro u v; exact ⟨0, rfl⟩
  | cons d m h1 h2 _ ih =>
    intro u v
    obtain ⟨n, hn⟩ := ih (u ++ '.' :: d) v
    refine ⟨n + 1, '.' :: d, m, rfl, by simp, Re.fits_seq.2 ⟨['.'], d, rfl, Re.fits_chr.2 ⟨'.', rfl, by decide⟩, ?_⟩, hn⟩
    exact Re.fits_rep_chr.2 ⟨List.length_pos_iff.2 h1, fun _ e => (nomatch e), h2⟩

theorem fits_dotted {cc : CharClass} {u x v : Str} : (dottedRe cc).Fits cc u x v ↔ Dotted cc x := by
  unfold dottedRe
  rw [Re.fits_rep]
  constructor
  · rintro ⟨n, _, _, h⟩; exact fitsTimes_dotted n u x v h
  · intro h
    obtain ⟨n, hn⟩ := dotted_fitsTimes h u v
    exact ⟨n, Nat.zero_le _, fun _ e => (nomatch e), hn⟩

theorem fits_doiHead {cc : CharClass} {u x v : Str} : (doiHeadRe cc).Fits cc u x v ↔
    ∃ d m, x = c!"10." ++ d ++ m ++ ['/'] ∧ 4 ≤ d.length ∧ (∀ c ∈ d, cc.isDigit c = true) ∧ Dotted cc m := by
  unfold doiHeadRe
  simp only [Re.fits_seq, Re.fits_lit, fits_dotted, Re.fits_rep_chr, sameLetters_exactly]
  constructor
  · rintro ⟨_, _, rfl, ⟨_, m, rfl, ⟨_, d, rfl, rfl, h1, _, h2⟩, h3⟩, rfl⟩
    exact ⟨d, m, rfl, h1, h2, h3⟩
  · rintro ⟨d, m, rfl, h1, h2, h3⟩
    exact ⟨_, _, rfl, ⟨_, m, rfl, ⟨_, d, rfl, rfl, h1, fun _ e => (nomatch e), h2⟩, h3⟩, rfl⟩

theorem takeWhile_digits {cc : CharClass} (hcc : DigitsPlain cc) {d m rest : Str} (hd : ∀ c ∈ d, cc.isDigit c = true) (hm : Dotted cc m) :
    (d ++ m ++ '/' :: rest).takeWhile cc.isDigit = d := by
  rw [List.append_assoc, List.takeWhile_append_of_pos hd]
  have : (m ++ '/' :: rest).takeWhile cc.isDigit = [] := by
    cases hm with
    | nil => rw [List.nil_append, List.takeWhile_cons, (digit_not hcc).2]; rfl
    | cons d' m' _ _ _ =>
      rw [List.append_assoc, List.cons_append, List.takeWhile_cons, (digit_not hcc).1]; rfl
  rw [this, List.append_nil]

/-- The start of a DOI up to the slash, and the rest of the text. -/
def doiHead (cc : CharClass) : Str → Option Str
  | '1' :: '0' :: '.' :: r => if (r.takeWhile cc.isDigit).length < 4 then none else doiRest cc false r
  | _ => none

theorem doiHead_iff {cc : CharClass} (hcc : DigitsPlain cc) {w v : Str} : doiHead cc w = some v ↔
    ∃ d m, w = c!"10." ++ d ++ m ++ ['/'] ++ v ∧ 4 ≤ d.length ∧ (∀ c ∈ d, cc.isDigit c = true) ∧ Dotted cc m := by
  constructor
  · intro h
    unfold doiHead at h
    split at h
    · next r =>
      split at h
      · cases h
      · next hl =>
        obtain ⟨d, m, h1, h2, _, h4⟩ := dotted_of_rest r v false h
        rw [h1, takeWhile_digits hcc h2 h4] at hl
        exact ⟨d, m, by rw [h1]; simp, by omega, h2, h4⟩
    · cases h
  · rintro ⟨d, m, rfl, h1, h2, h3⟩
    have e : c!"10." ++ d ++ m ++ ['/'] ++ v = '1' :: '0' :: '.' :: (d ++ m ++ '/' :: v) := by simp
    rw [e]
    unfold doiHead
    simp only []
    rw [takeWhile_digits hcc h2 h3, if_neg (by omega), List.append_assoc, doiRest_digits d _ false h2 (fun h => nomatch h), doiRest_dotted hcc h3]

/-- All matches of the start of a DOI end at the same place. -/
theorem doiHead_run {cc : CharClass} (hcc : DigitsPlain cc) (u w : Str) :
    (∀ k, k ∈ (doiHeadRe cc).run cc (u ++ w) u.length ↔ ∃ v, doiHead cc w = some v ∧ k = (u ++ w).length - v.length) := by
  intro k
  have hu : u.length ≤ (u ++ w).length := by simp
  rw [Re.mem_run hu]
  constructor
  · intro h
    have hb := h.bounds hu
    obtain ⟨u', x, v, e, e1, e2⟩ := split_at hb.1 hb.2
    have e3 : u = u' ∧ w = x ++ v := by
      rw [List.append_assoc] at e
      exact List.append_inj e e1
    obtain ⟨rfl, rfl⟩ := e3
    subst e2
    have hf : (doiHeadRe cc).Fits cc u x v := by
      unfold Re.Fits
      rw [List.append_assoc]
      exact h
    obtain ⟨d, m, hx, h1, h2, h3⟩ := fits_doiHead.1 hf
    exact ⟨v, (doiHead_iff hcc).2 ⟨d, m, by rw [hx], h1, h2, h3⟩, by simp; omega⟩
  · rintro ⟨v, h, rfl⟩
    obtain ⟨d, m, hw, h1, h2, h3⟩ := (doiHead_iff hcc).1 h
    have hf := fits_doiHead (cc := cc) (u := u) (v := v).2 ⟨d, m, rfl, h1, h2, h3⟩
    unfold Re.Fits at hf
    rw [hw]
    have e : (u ++ (c!"10." ++ d ++ m ++ ['/'] ++ v)).length - v.length = u.length + (c!"10." ++ d ++ m ++ ['/']).length := by
      simp only [List.length_append]; omega
    rw [e, ← List.append_assoc]
    exact hf

theorem head_flatMap_same {α β : Type _} {l : List α} {a : α} (h : ∀ x ∈ l, x = a) (f : α → List β) :
    (l.flatMap f).head? = if l = [] then none else (f a).head? := by
  cases l with
  | nil => rfl
  | cons x l =>
    obtain rfl := h x List.mem_cons_self
    rw [if_neg (by simp), List.flatMap_cons, List.head?_append]
    cases hx : (f x).head? with
    | some y => rfl
    | none =>
      have hn : f x = [] := List.head?_eq_none_iff.1 hx
      have : l.flatMap f = [] := by
        rw [List.flatMap_eq_nil_iff]
        intro y hy
        rw [h y (List.mem_cons_of_mem _ hy), hn]
      rw [this]; rfl

/-- The longest match of `.+`. -/
theorem plus_head {cc : CharClass} {p : Char → Bool} (u v : Str) :
    ((Re.plus p).run cc (u ++ v) u.length).head? = if (v.takeWhile p).isEmpty then none else some (u.length + (v.takeWhile p).length) := by
  have hu : u.length ≤ (u ++ v).length := by simp
  have hlong := (Re.longest_rep (cc := cc) (p := p) (lo := 1) (hi := none)) (u ++ v) u.length
  have hmem : ∀ x y, v = x ++ y → x ≠ [] → (∀ c ∈ x, p c = true) → u.length + x.length ∈ (Re.plus p).run cc (u ++ v) u.length := by
    intro x y e hx hp
    rw [Re.mem_run hu]
    have := (Re.fits_plus (cc := cc) (u := u) (v := y)).2 ⟨hx, hp⟩
    unfold Re.Fits at this
    rw [e, ← List.append_assoc]
    exact this
  have hall : ∀ k ∈ (Re.plus p).run cc (u ++ v) u.length, ∃ x y, v = x ++ y ∧ x ≠ [] ∧ (∀ c ∈ x, p c = true) ∧ k = u.length + x.length := by
    intro k hk
    have h := (Re.mem_run hu).1 hk
    have hb := h.bounds hu
    obtain ⟨u', x, y, e, e1, e2⟩ := split_at hb.1 hb.2
    obtain ⟨rfl, rfl⟩ : u = u' ∧ v = x ++ y := by
      rw [List.append_assoc] at e
      exact List.append_inj e e1
    subst e2
    have hf : (Re.plus p).Fits cc u x y := by
      unfold Re.Fits
      rw [List.append_assoc]
      exact h
    exact ⟨x, y, rfl, (Re.fits_plus.1 hf).1, (Re.fits_plus.1 hf).2, rfl⟩
  have hle : ∀ x y, v = x ++ y → (∀ c ∈ x, p c = true) → x.length ≤ (v.takeWhile p).length := by
    rintro x y rfl hx
    rw [List.takeWhile_append_of_pos hx]
    simp
  have hpre : ∀ c ∈ v.takeWhile p, p c = true := by
    intro c hc
    exact List.all_eq_true.1 List.all_takeWhile c hc
  split
  · next he =>
    rw [List.head?_eq_none_iff]
    refine List.eq_nil_iff_forall_not_mem.2 (fun k hk => ?_)
    obtain ⟨x, y, h1, h2, h3, _⟩ := hall k hk
    have := hle x y h1 h3
    rw [List.isEmpty_iff.1 he] at this
    exact h2 (List.length_eq_zero_iff.1 (by simpa using this))
  · next he =>
    have hne : v.takeWhile p ≠ [] := fun h => he (by rw [h]; rfl)
    have hm := hmem _ _ (List.takeWhile_append_dropWhile (p := p) (l := v)).symm hne hpre
    cases hh : ((Re.plus p).run cc (u ++ v) u.length).head? with
    | none => rw [List.head?_eq_none_iff.1 hh] at hm; cases hm
    | some k =>
      have h1 := head_greatest hlong hh hm
      obtain ⟨x, y, h2, _, h3, h4⟩ := hall k (List.mem_of_mem_head? hh)
      have := hle x y h2 h3
      congr 1
      omega

theorem doiAt_eq (cc : CharClass) (w : Str) : doiAt cc w = (doiHead cc w).bind (fun v =>
    if (v.takeWhile (fun c => c ≠ '\n')).isEmpty then none else some (w.length - v.length + (v.takeWhile (fun c => c ≠ '\n')).length)) := by
  unfold doiAt
  split
  · next r =>
    have hd : doiHead cc ('1' :: '0' :: '.' :: r) = if (r.takeWhile cc.isDigit).length < 4 then none else doiRest cc false r := rfl
    rw [hd]
    split
    · rfl
    · cases h : doiRest cc false r with
      | none => rfl
      | some v =>
        obtain ⟨p, hp, _⟩ := doiRest_spec h
        have : 3 + (r.length - v.length) = ('1' :: '0' :: '.' :: r).length - v.length := by
          rw [hp]; simp; omega
        simp only [this]
        rfl
  · next hn =>
    have : doiHead cc w = none := by
      unfold doiHead
      split
      · next r => exact absurd rfl (hn r)
      · rfl
    rw [this]; rfl

theorem doiRe_head {cc : CharClass} (hcc : DigitsPlain cc) (u w : Str) :
    ((doiRe cc).run cc (u ++ w) u.length).head? = (doiAt cc w).map (u.length + ·) := by
  have hk := doiHead_run hcc u w
  rw [doiRe_run, doiAt_eq]
  cases hh : doiHead cc w with
  | none =>
    have : (doiHeadRe cc).run cc (u ++ w) u.length = [] := by
      refine List.eq_nil_iff_forall_not_mem.2 (fun k hm => ?_)
      obtain ⟨v, hv, _⟩ := (hk k).1 hm
      rw [hh] at hv; cases hv
    rw [this]; rfl
  | some v =>
    have h1 : ∀ k ∈ (doiHeadRe cc).run cc (u ++ w) u.length, k = (u ++ w).length - v.length := by
      intro k hm
      obtain ⟨v', hv, e⟩ := (hk k).1 hm
      rw [hh] at hv; cases hv
      exact e
    have h2 := (hk ((u ++ w).length - v.length)).2 ⟨v, hh, rfl⟩
    rw [head_flatMap_same h1, if_neg (fun h => by rw [h] at h2; cases h2)]
    obtain ⟨d, m, hw, _⟩ := (doiHead_iff hcc).1 hh
    have e1 : (u ++ w).length - v.length = (u ++ (c!"10." ++ d ++ m ++ ['/'])).length := by
      rw [hw]; simp only [List.length_append]; omega
    have e2 : u ++ w = (u ++ (c!"10." ++ d ++ m ++ ['/'])) ++ v := by rw [hw]; simp only [List.append_assoc]
    rw [e1, e2, plus_head]
    simp only [Option.bind_some]
    split
    · rfl
    · simp only [Option.map_some, Option.some.injEq]
      rw [hw]; simp only [List.length_append]; omega

theorem doiPattern_all {cc : CharClass} (hcc : DigitsPlain cc) (u w : Str) :
    ((doiPattern cc).all cc (u ++ w) u.length).head? =
      (if boundaryAt cc (u ++ w) u.length then doiAt cc w else none).map (fun n => (u.length, u.length + n)) := by
  unfold Pattern.all doiPattern
  simp only [Re.run]
  split
  · simp only [List.flatMap_cons, List.flatMap_nil, List.append_nil, List.map_cons, List.map_nil]
    rw [← List.map_eq_flatMap, List.head?_map, doiRe_head hcc, Option.map_map]
    rfl
  · rfl

theorem doiSearch_from {cc : CharClass} (hcc : DigitsPlain cc) : ∀ (w u : Str),
    doiSearch cc u.getLast? u.length w = (List.range' u.length (w.length + 1)).findSome? (fun i => ((doiPattern cc).all cc (u ++ w) i).head?) := by
  intro w
  induction w with
  | nil =>
    intro u
    show none = List.findSome? _ [u.length]
    rw [List.findSome?_cons, doiPattern_all hcc]
    simp [doiAt]
  | cons c w ih =>
    intro u
    rw [List.length_cons, List.range'_succ, List.findSome?_cons, doiPattern_all hcc, doiSearch]
    have hb : boundaryAt cc (u ++ c :: w) u.length = ((u.getLast?.map cc.isWord).getD false != cc.isWord c) := by
      have := Re.fits_wordB (cc := cc) (u := u) (x := []) (v := c :: w)
      unfold Re.Fits Re.Den at this
      simp only [List.append_nil, List.length_nil, Nat.add_zero, and_true, true_and] at this
      rw [Bool.eq_iff_iff, this, bne_iff_ne]
      rfl
    rw [hb]
    cases hx : (if ((u.getLast?.map cc.isWord).getD false != cc.isWord c) = true then doiAt cc (c :: w) else none) with
    | some n => rfl
    | none =>
      have := ih (u ++ [c])
      simp only [List.getLast?_concat, List.length_append, List.length_singleton, List.append_assoc, List.singleton_append] at this
      simp only [Option.map_none]
      exact this

/-- The search of Model/JatsText is that of the regular expression. -/
theorem doiSearch_pattern {cc : CharClass} (hcc : DigitsPlain cc) (s : Str) : doiSearch cc none 0 s = (doiPattern cc).search cc s := by
  have := doiSearch_from hcc s []
  rw [Pattern.search, List.range_eq_range']
  exact this

end Verif
