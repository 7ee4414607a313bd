/-
C149: DOIs and their addresses in texts.
-/
import Verif.Props.JatsPatterns
import Verif.Lemmas.RegexDoi

namespace Verif
open Spec

/-- The first match ends before a character other than `p`. -/
def Re.EndsGreedy (cc : CharClass) (p : Char → Bool) (r : Re) : Prop :=
  ∀ (s : Str) (i j : Nat), i ≤ s.length → (r.run cc s i).head? = some j → ∀ c, s[j]? = some c → p c = false

theorem Re.endsGreedy_seq {cc : CharClass} {p : Char → Bool} {a b : Re} (hb : b.EndsGreedy cc p) : (Re.seq a b).EndsGreedy cc p := by
  intro s i j hi h
  obtain ⟨l₁, k, l₂, h1, h2, _⟩ := head_flatMap h
  have h1 : k ∈ a.run cc s i := by rw [h1]; simp
  exact hb s k j (((Re.mem_run hi).1 h1).bounds hi).2 h2

theorem Re.endsGreedy_rep {cc : CharClass} {p : Char → Bool} {lo : Nat} : (Re.rep (.chr p) lo none true).EndsGreedy cc p := by
  intro s i j hi h c hc
  refine Bool.eq_false_iff.2 (fun hp => ?_)
  have hm := (Re.mem_run hi).1 (List.mem_of_mem_head? h)
  have hb := hm.bounds hi
  obtain ⟨u, x, v, e, rfl, rfl⟩ := split_at hb.1 hb.2
  have hf : (Re.rep (.chr p) lo none true).Fits cc u x v := by unfold Re.Fits; rw [← e]; exact hm
  obtain ⟨h1, _, h3⟩ := Re.fits_rep_chr.1 hf
  obtain ⟨v', rfl⟩ : ∃ v', v = c :: v' := by
    rw [e, List.getElem?_append_right (by simp)] at hc
    simp only [List.length_append, Nat.sub_self] at hc
    cases v with
    | nil => cases hc
    | cons d v' => cases hc; exact ⟨v', rfl⟩
  have hf' : (Re.rep (.chr p) lo none true).Fits cc u (x ++ [c]) v' := by
    refine Re.fits_rep_chr.2 ⟨by simp; omega, fun _ e => (nomatch e), fun d hd => ?_⟩
    rcases List.mem_append.1 hd with hd | hd
    · exact h3 d hd
    · rw [List.mem_singleton.1 hd]; exact hp
  have hm' : u.length + (x ++ [c]).length ∈ (Re.rep (.chr p) lo none true).run cc s u.length := by
    refine (Re.mem_run hi).2 ?_
    unfold Re.Fits at hf'
    rw [e]
    simpa using hf'
  have := head_greatest (Re.longest_rep s u.length) h hm'
  simp at this
  omega

/-! ### DOIs -/

theorem fits_doiRe {cc : CharClass} {u x v : Str} : (doiRe cc).Fits cc u x v ↔ DoiForm cc x := by
  unfold doiRe
  have hd := @fits_dotted cc
  unfold dottedRe at hd
  simp only [Re.cat, Re.fits_seq, Re.fits_lit, Re.fits_plus, hd, Re.fits_rep_chr, sameLetters_exactly]
  constructor
  · rintro ⟨_, _, rfl, rfl, d, _, rfl, ⟨h1, _, h2⟩, m, _, rfl, h3, _, r, rfl, rfl, h4, h5⟩
    exact ⟨d, m, r, by simp, h1, h2, h3, h4, fun h => absurd rfl (of_decide_eq_true (h5 _ h))⟩
  · rintro ⟨d, m, r, rfl, h1, h2, h3, h4, h5⟩
    exact ⟨_, _, by simp, rfl, d, _, rfl, ⟨h1, fun _ e => (nomatch e), h2⟩, m, _, rfl, h3, c!"/", r, rfl, rfl, h4,
      fun c hc => decide_eq_true (fun e => h5 (e ▸ hc))⟩

theorem doiForm_cons {cc : CharClass} {x : Str} (h : DoiForm cc x) : ∃ t, x = '1' :: t := by
  obtain ⟨d, m, r, rfl, _⟩ := h
  exact ⟨_, rfl⟩

theorem fits_doiPattern {cc : CharClass} {u y x z v : Str} :
    (doiPattern cc).Fits cc u y x z v ↔ y = [] ∧ z = [] ∧ DoiForm cc x ∧ WordEdge cc u x := by
  have hx : DoiForm cc x → startsInWord cc (x ++ v) = startsInWord cc x := by
    intro h
    obtain ⟨t, rfl⟩ := doiForm_cons h
    rfl
  unfold Pattern.Fits doiPattern
  simp only [fits_doiRe, Re.fits_wordB, Re.fits_empty]
  constructor
  · rintro ⟨⟨rfl, h1⟩, h2, rfl⟩
    rw [List.append_nil, hx h2] at h1
    exact ⟨rfl, rfl, h2, wordEdge_iff.1 h1⟩
  · rintro ⟨rfl, rfl, h2, h1⟩
    refine ⟨⟨rfl, ?_⟩, h2, rfl⟩
    rw [List.append_nil, hx h2]
    exact wordEdge_iff.2 h1

/-- **C149.** A DOI is found in a text exactly if there is one at a border of a word. The first one is found, and it reaches
until the end of the line. The search is that of the regular expression. -/
theorem C149_doi (cc : CharClass) (hcc : DigitsPlain cc) (s : Str) :
    doiSearch cc none 0 s = (doiPattern cc).search cc s ∧
    (doiSearch cc none 0 s = none ↔ ∀ u x v, s = u ++ x ++ v → DoiForm cc x → ¬ WordEdge cc u x) ∧
    ∀ a b, doiSearch cc none 0 s = some (a, b) →
      ∃ u x v, s = u ++ x ++ v ∧ DoiForm cc x ∧ WordEdge cc u x ∧ a = u.length ∧ b = (u ++ x).length ∧
        (v = [] ∨ v.head? = some '\n') ∧
        ∀ u' x' v', s = u' ++ x' ++ v' → DoiForm cc x' → WordEdge cc u' x' → u.length ≤ u'.length := by
  rw [doiSearch_pattern hcc]
  refine ⟨rfl, ?_, fun a b h => ?_⟩
  · rw [Pattern.search_none_iff]
    constructor
    · intro h u x v e h1 h2
      exact h u [] x [] v (by simpa using e) (fits_doiPattern.2 ⟨rfl, rfl, h1, h2⟩)
    · intro h u y x z v e hf
      obtain ⟨rfl, rfl, h1, h2⟩ := fits_doiPattern.1 hf
      exact h u x v (by simpa using e) h1 h2
  · obtain ⟨u, y, x, z, v, e, e1, e2, hf, hh, hm⟩ := Pattern.search_fits h
    obtain ⟨rfl, rfl, h1, h2⟩ := fits_doiPattern.1 hf
    simp only [List.append_nil, List.length_nil, Nat.add_zero] at e e1 e2
    refine ⟨u, x, v, e, h1, h2, e1, by rw [e2]; simp, ?_, fun u' x' v' e' g1 g2 => ?_⟩
    · obtain ⟨_, k, _, _, h3, _⟩ := head_flatMap hh
      obtain ⟨_, l, _, _, h4, _⟩ := head_flatMap h3
      cases v with
      | nil => exact .inl rfl
      | cons c v =>
        right
        have hab : (k, l) = (a, b) := by
          have : (Re.empty.run cc s l).map (fun _ => (k, l)) = [(k, l)] := rfl
          rw [show (doiPattern cc).post = Re.empty from rfl, this] at h4
          exact Option.some.inj h4
        obtain ⟨rfl, rfl⟩ := Prod.mk.inj hab
        have hgr : (doiRe cc).EndsGreedy cc (fun c => c ≠ '\n') :=
          Re.endsGreedy_seq (Re.endsGreedy_seq (Re.endsGreedy_seq (Re.endsGreedy_seq Re.endsGreedy_rep)))
        have hhd : ((doiRe cc).run cc s k).head? = some l := by
          have h3' : (((doiRe cc).run cc s k).map (fun l => (k, l))).head? = some (k, l) := by
            rw [List.map_eq_flatMap]
            exact h3
          rw [List.head?_map] at h3'
          obtain ⟨l', h5, h6⟩ := Option.map_eq_some_iff.1 h3'
          rw [h5]
          exact congrArg some (Prod.mk.inj h6).2
        have := hgr s k l (by rw [e1, e]; simp) hhd c (by
          rw [e, e2, List.getElem?_append_right (by simp)]; simp)
        simp only [decide_eq_false_iff_not, ne_eq, Classical.not_not] at this
        rw [this]; rfl
    · exact hm u' [] x' [] v' (by simpa using e') (fits_doiPattern.2 ⟨rfl, rfl, g1, g2⟩)

/-- **C149.** The text of a DOI link is cut off at the last DOI in brackets on its first line. -/
theorem C149_doi_link (cc : CharClass) (hb : cc.isWord '[' = false) (h1 : cc.isWord '1' = true) (isPunct : Char → Bool)
    (same : Char → Char → Bool) (lower : Str → Str) (s : Str) :
    ((jatsEnvOf cc isPunct same lower).doiExtLink s = none ↔ ∀ u x v, ¬ BracketedDoi cc s u x v) ∧
    ∀ a, (jatsEnvOf cc isPunct same lower).doiExtLink s = some a →
      ∃ u x v, BracketedDoi cc s u x v ∧ a = u.length ∧ ∀ u' x' v', BracketedDoi cc s u' x' v' → u'.length ≤ u.length := by
  have hg : ∀ u x v, (doiExtLinkPattern cc).grp.Fits cc u x v ↔ ∃ y, x = c!"[" ++ y ++ c!"]" ∧ DoiForm cc y := by
    intro u x v
    unfold doiExtLinkPattern
    simp only [Re.cat, Re.fits_seq, Re.fits_lit, Re.fits_wordB, fits_doiRe, sameLetters_exactly]
    constructor
    · rintro ⟨_, _, rfl, rfl, _, _, rfl, ⟨rfl, _⟩, y, _, rfl, h3, rfl⟩
      exact ⟨y, rfl, h3⟩
    · rintro ⟨y, rfl, h3⟩
      refine ⟨_, _, by simp, rfl, [], _, rfl, ⟨rfl, ?_⟩, y, c!"]", rfl, h3, rfl⟩
      obtain ⟨t, rfl⟩ := doiForm_cons h3
      simp [endsInWord, startsInWord, hb, h1]
  have hmem : ∀ a b, (a, b) ∈ (doiExtLinkPattern cc).all cc s 0 → ∃ u x v, BracketedDoi cc s u x v ∧ a = u.length := by
    intro a b hm
    obtain ⟨j, hd⟩ := (Pattern.mem_all (Nat.zero_le _)).1 hm
    obtain ⟨u, y, x, z, v, e, e1, e2, e3, hf⟩ := Pattern.den_split (Nat.zero_le _) hd
    have hu : u = [] := List.length_eq_zero_iff.1 e1.symm
    subst hu
    obtain ⟨f1, f2, f3⟩ := hf
    obtain ⟨w, rfl, hw⟩ := (hg _ _ _).1 f2
    obtain rfl := Re.fits_empty.1 f3
    refine ⟨y, w, v, ⟨by rw [e]; simp, fun h => ?_, hw⟩, by simpa using e2⟩
    exact absurd rfl (of_decide_eq_true (Re.fits_star.1 f1 _ h))
  have hall : ∀ u x v, BracketedDoi cc s u x v → ∃ b, (u.length, b) ∈ (doiExtLinkPattern cc).all cc s 0 := by
    rintro u x v ⟨e, hl, hx⟩
    refine ⟨u.length + (c!"[" ++ x ++ c!"]").length, (Pattern.mem_all (Nat.zero_le _)).2 ⟨u.length + (c!"[" ++ x ++ c!"]").length, ?_⟩⟩
    have hf : (doiExtLinkPattern cc).Fits cc [] u (c!"[" ++ x ++ c!"]") [] v :=
      ⟨Re.fits_star.2 (fun c hc => decide_eq_true (fun h => hl (h ▸ hc))), (hg _ _ _).2 ⟨x, rfl, hx⟩, Re.fits_empty.2 rfl⟩
    have := Pattern.den_iff.2 hf
    have e' : s = [] ++ u ++ (c!"[" ++ x ++ c!"]") ++ [] ++ v := by rw [e]; simp
    rw [← e'] at this
    simpa using this
  have hord : ((doiExtLinkPattern cc).all cc s 0).Pairwise (fun a b => b.1 ≤ a.1) := by
    have hl : ((doiExtLinkPattern cc).pre.run cc s 0).Pairwise (fun a b => b < a) := Re.longest_rep s 0
    unfold Pattern.all
    generalize (doiExtLinkPattern cc).pre.run cc s 0 = l at hl
    induction l with
    | nil => exact .nil
    | cons k l ih =>
      obtain ⟨g1, g2⟩ := List.pairwise_cons.1 hl
      rw [List.flatMap_cons]
      have hk : ∀ k q, q ∈ ((doiExtLinkPattern cc).grp.run cc s k).flatMap (fun l => ((doiExtLinkPattern cc).post.run cc s l).map (fun _ => (k, l))) →
          q.1 = k := by
        intro k q hq
        obtain ⟨l', _, h⟩ := List.mem_flatMap.1 hq
        obtain ⟨_, _, rfl⟩ := List.mem_map.1 h
        rfl
      refine List.pairwise_append.2 ⟨?_, ih g2, fun a ha b hb => ?_⟩
      · refine List.pairwise_iff_forall_sublist.2 (fun {a b} hs => ?_)
        have h1 := hk k a (hs.subset List.mem_cons_self)
        have h2 := hk k b (hs.subset (List.mem_cons_of_mem _ List.mem_cons_self))
        omega
      · obtain ⟨k', hk', hb'⟩ := List.mem_flatMap.1 hb
        have h1 := hk k a ha
        have h2 := hk k' b hb'
        have := g1 k' hk'
        omega
  have hdef : (jatsEnvOf cc isPunct same lower).doiExtLink s = ((doiExtLinkPattern cc).all cc s 0).head?.map (·.1) := rfl
  rw [hdef]
  refine ⟨?_, fun a h => ?_⟩
  · rw [Option.map_eq_none_iff, List.head?_eq_none_iff]
    constructor
    · intro h u x v hd
      obtain ⟨b, hm⟩ := hall u x v hd
      rw [h] at hm; cases hm
    · intro h
      refine List.eq_nil_iff_forall_not_mem.2 (fun ⟨a, b⟩ hm => ?_)
      obtain ⟨u, x, v, hd, _⟩ := hmem a b hm
      exact h u x v hd
  · obtain ⟨⟨a', b⟩, h2, rfl⟩ := Option.map_eq_some_iff.1 h
    obtain ⟨u, x, v, hd, e⟩ := hmem a' b (List.mem_of_mem_head? h2)
    refine ⟨u, x, v, hd, e, fun u' x' v' hd' => ?_⟩
    obtain ⟨b', hm⟩ := hall u' x' v' hd'
    rw [← e]
    generalize (doiExtLinkPattern cc).all cc s 0 = l at *
    cases l with
    | nil => cases h2
    | cons q l =>
      cases h2
      rcases List.mem_cons.1 hm with h3 | h3
      · exact Nat.le_of_eq (Prod.mk.inj h3).1
      · exact (List.pairwise_cons.1 hord).1 _ h3

/-! ### The end of PIIs -/

/-- At most the first match of `a` can be followed by another one. -/
structure Re.OneWay (cc : CharClass) (s : Str) (a : Re) : Prop where
  desc : ∀ i, (a.run cc s i).Pairwise (fun x y => y < x)
  forward : ∀ i, ∀ k ∈ a.run cc s i, i < k
  stuck : ∀ i k l, a.run cc s i = k :: l → ∀ x ∈ l, a.run cc s x = []

theorem repRun_stuck {step : Nat → List Nat} {g : Bool} {i : Nat} (h : step i = []) : ∀ (fuel lo : Nat) (hi : Option Nat),
    ∀ j ∈ repRun step g fuel lo hi i, j = i := by
  intro fuel lo hi j hj
  cases fuel with
  | zero =>
    simp only [repRun] at hj
    split at hj
    · exact List.mem_singleton.1 hj
    · cases hj
  | succ fuel =>
    simp only [repRun, h, List.filter_nil, List.flatMap_nil, ite_self] at hj
    split at hj
    · cases hj
    · split at hj
      · exact List.mem_singleton.1 hj
      · exact List.mem_singleton.1 hj

theorem repRun_oneWay {cc : CharClass} {a : Re} {s : Str} (ha : a.OneWay cc s) : ∀ (fuel lo : Nat) (hi : Option Nat) (i : Nat),
    (repRun (a.run cc s) true fuel lo hi i).Pairwise (fun x y => y < x) ∧ ∀ j ∈ repRun (a.run cc s) true fuel lo hi i, i ≤ j := by
  intro fuel
  induction fuel with
  | zero =>
    intro lo hi i
    simp only [repRun]
    split <;> simp
  | succ fuel ih =>
    intro lo hi i
    simp only [repRun]
    generalize hmore : (if hi = some 0 then ([] : List Nat) else _) = more
    have hm : more.Pairwise (fun x y => y < x) ∧ ∀ j ∈ more, i < j := by
      subst hmore
      split
      · exact ⟨.nil, fun j h => nomatch h⟩
      · rw [List.filter_eq_self.2 (fun k hk => decide_eq_true (ha.forward i k hk))]
        refine ⟨?_, fun j hj => ?_⟩
        · cases hr : a.run cc s i with
          | nil => exact .nil
          | cons k l =>
            rw [List.flatMap_cons]
            have hd := ha.desc i
            rw [hr] at hd
            obtain ⟨d1, d2⟩ := List.pairwise_cons.1 hd
            have hst := ha.stuck i k l hr
            refine List.pairwise_append.2 ⟨(ih _ _ k).1, ?_, fun x hx y hy => ?_⟩
            · clear d1 hr hd
              induction l with
              | nil => exact .nil
              | cons m l ihl =>
                obtain ⟨d3, d4⟩ := List.pairwise_cons.1 d2
                rw [List.flatMap_cons]
                refine List.pairwise_append.2 ⟨(ih _ _ m).1, ihl d4 (fun x hx => hst x (List.mem_cons_of_mem _ hx)), fun x hx y hy => ?_⟩
                obtain ⟨n, hn, hy⟩ := List.mem_flatMap.1 hy
                have e1 := repRun_stuck (hst m List.mem_cons_self) _ _ _ x hx
                have e2 := repRun_stuck (hst n (List.mem_cons_of_mem _ hn)) _ _ _ y hy
                have := d3 n hn
                omega
            · obtain ⟨n, hn, hy⟩ := List.mem_flatMap.1 hy
              have e1 := (ih _ _ k).2 x hx
              have e2 := repRun_stuck (hst n hn) _ _ _ y hy
              have := d1 n hn
              omega
        · obtain ⟨k, hk, hj⟩ := List.mem_flatMap.1 hj
          have := ha.forward i k hk
          have := (ih _ _ k).2 j hj
          omega
    split
    · exact ⟨hm.1, fun j hj => Nat.le_of_lt (hm.2 j hj)⟩
    · simp only [if_true]
      refine ⟨List.pairwise_append.2 ⟨hm.1, List.pairwise_singleton _ _, fun a ha b hb => ?_⟩, fun j hj => ?_⟩
      · rw [List.mem_singleton.1 hb]; exact hm.2 a ha
      · rcases List.mem_append.1 hj with h | h
        · exact Nat.le_of_lt (hm.2 j h)
        · exact Nat.le_of_eq (List.mem_singleton.1 h).symm

/-- Only the first match of `p*` is not followed by a character of `p`. -/
theorem star_stuck {cc : CharClass} {p : Char → Bool} {s : Str} {i k : Nat} {l : List Nat} (hi : i ≤ s.length)
    (h : (Re.star p).run cc s i = k :: l) : ∀ x ∈ l, ∃ c, s[x]? = some c ∧ p c = true := by
  intro x hx
  have hd : (k :: l).Pairwise (fun a b => b < a) := h ▸ Re.longest_rep (cc := cc) (p := p) (lo := 0) (hi := none) s i
  have hlt := (List.pairwise_cons.1 hd).1 x hx
  have hk := (Re.mem_run hi).1 (h ▸ List.mem_cons_self : k ∈ (Re.star p).run cc s i)
  have hx' := (Re.mem_run hi).1 (h ▸ List.mem_cons_of_mem _ hx : x ∈ (Re.star p).run cc s i)
  have hb := hk.bounds hi
  have hb' := hx'.bounds hi
  obtain ⟨u, y, v, e, rfl, rfl⟩ := split_at hb.1 hb.2
  have hf : (Re.star p).Fits cc u y v := by unfold Re.Fits; rw [← e]; exact hk
  have hp := Re.fits_star.1 hf
  have hlen : x - u.length < y.length := by omega
  refine ⟨y[x - u.length], ?_, hp _ (List.getElem_mem hlen)⟩
  rw [e, List.append_assoc, List.getElem?_append_right (by omega), List.getElem?_append_left hlen, List.getElem?_eq_getElem hlen]

theorem chr_run_not {cc : CharClass} {p : Char → Bool} {s : Str} {i : Nat} {c : Char} (h : s[i]? = some c) (hp : p c = false) :
    (Re.chr p).run cc s i = [] := by
  simp [Re.run, h, hp]

theorem chr_run_cases {cc : CharClass} {p : Char → Bool} {s : Str} {i : Nat} : (Re.chr p).run cc s i = [] ∨
    ((Re.chr p).run cc s i = [i + 1] ∧ i + 1 ≤ s.length) := by
  simp only [Re.run]
  split
  · next c hc =>
    split
    · exact .inr ⟨rfl, (List.getElem?_eq_some_iff.1 hc).1⟩
    · exact .inl rfl
  · exact .inl rfl

theorem piiBlock_oneWay {cc : CharClass} (hw : ∀ c, piiDigit c = true → cc.isWord c = true) (s : Str) : (piiBlock cc).OneWay cc s := by
  have hrun : ∀ i, (piiBlock cc).run cc s i = [] ∨ ((piiBlock cc).run cc s i = (Re.star (fun c => !cc.isWord c)).run cc s (i + 1) ∧ i + 1 ≤ s.length) := by
    intro i
    unfold piiBlock
    rw [show (Re.seq (.chr isPiiChar) (.star (fun c => !cc.isWord c))).run cc s i =
      ((Re.chr isPiiChar).run cc s i).flatMap ((Re.star (fun c => !cc.isWord c)).run cc s) from rfl]
    rcases chr_run_cases (cc := cc) (p := isPiiChar) (s := s) (i := i) with h | ⟨h, hb⟩
    · rw [h]; exact .inl rfl
    · rw [h]; exact .inr ⟨by simp, hb⟩
  constructor
  · intro i
    rcases hrun i with h | ⟨h, _⟩
    · rw [h]; exact .nil
    · rw [h]; exact Re.longest_rep s (i + 1)
  · intro i k hk
    rcases hrun i with h | ⟨h, hb⟩
    · rw [h] at hk; cases hk
    · rw [h] at hk
      have := (((Re.mem_run hb).1 hk).bounds hb).1
      omega
  · intro i k l he x hx
    rcases hrun i with h | ⟨h, hb⟩
    · rw [h] at he; cases he
    · rw [h] at he
      obtain ⟨c, hc, hp⟩ := star_stuck hb he x hx
      have hn : isPiiChar c = false := Bool.eq_false_iff.2 (fun h => by
        rw [hw c h] at hp; cases hp)
      show ((Re.chr isPiiChar).run cc s x).flatMap _ = []
      rw [chr_run_not hc hn]; rfl

theorem piiValid_longest {cc : CharClass} (hw : ∀ c, piiDigit c = true → cc.isWord c = true) {s : Str} {i : Nat} :
    ((piiValidPattern cc).grp.run cc s i).Pairwise (fun x y => y < x) := by
  have hX : ∀ j, ((Re.seq (.rep (piiBlock cc) 15 none true) (.chr isPiiChar)).run cc s j).Pairwise (fun x y => y < x) := by
    intro j
    have hd := (repRun_oneWay (piiBlock_oneWay hw s) (s.length + 1 - j) 15 none j).1
    show (List.flatMap _ _).Pairwise _
    generalize hl : (Re.rep (piiBlock cc) 15 none true).run cc s j = l
    have hd : l.Pairwise (fun x y => y < x) := hl ▸ hd
    clear hl
    induction l with
    | nil => exact .nil
    | cons k l ih =>
      obtain ⟨d1, d2⟩ := List.pairwise_cons.1 hd
      rw [List.flatMap_cons]
      refine List.pairwise_append.2 ⟨?_, ih d2, fun x hx y hy => ?_⟩
      · rcases chr_run_cases (cc := cc) (p := isPiiChar) (s := s) (i := k) with h | ⟨h, _⟩
        · rw [h]; exact .nil
        · rw [h]; exact List.pairwise_singleton _ _
      · obtain ⟨m, hm, hy⟩ := List.mem_flatMap.1 hy
        have := d1 m hm
        have e1 : x = k + 1 := by
          rcases chr_run_cases (cc := cc) (p := isPiiChar) (s := s) (i := k) with h | ⟨h, _⟩
          · rw [h] at hx; cases hx
          · rw [h] at hx; exact List.mem_singleton.1 hx
        have e2 : y = m + 1 := by
          rcases chr_run_cases (cc := cc) (p := isPiiChar) (s := s) (i := m) with h | ⟨h, _⟩
          · rw [h] at hy; cases hy
          · rw [h] at hy; exact List.mem_singleton.1 hy
        omega
  have hstuck : ∀ x c, s[x]? = some c → cc.isWord c = false →
      (Re.seq (.rep (piiBlock cc) 15 none true) (.chr isPiiChar)).run cc s x = [] := by
    intro x c hc hn
    have hb : (piiBlock cc).run cc s x = [] := by
      show ((Re.chr isPiiChar).run cc s x).flatMap _ = []
      rw [chr_run_not hc (Bool.eq_false_iff.2 (fun h => by rw [hw c h] at hn; cases hn))]; rfl
    show (List.flatMap _ ((Re.rep (piiBlock cc) 15 none true).run cc s x)) = []
    have : (Re.rep (piiBlock cc) 15 none true).run cc s x = [] := by
      have hlt := (List.getElem?_eq_some_iff.1 hc).1
      obtain ⟨f, hf⟩ : ∃ f, s.length + 1 - x = f + 1 := ⟨s.length - x, by omega⟩
      show repRun _ _ (s.length + 1 - x) _ _ _ = []
      rw [hf]
      simp only [repRun, hb, List.filter_nil, List.flatMap_nil, ite_self]
      rfl
    rw [this]; rfl
  have hY : ∀ j ≤ s.length, ((Re.seq (.star (fun c => !cc.isWord c)) (.seq (.rep (piiBlock cc) 15 none true) (.chr isPiiChar))).run cc s j).Pairwise
      (fun x y => y < x) := by
    intro j hj
    show (List.flatMap _ ((Re.star (fun c => !cc.isWord c)).run cc s j)).Pairwise _
    cases hr : (Re.star (fun c => !cc.isWord c)).run cc s j with
    | nil => exact .nil
    | cons k l =>
      have hst := star_stuck hj hr
      rw [List.flatMap_cons]
      have : l.flatMap ((Re.seq (.rep (piiBlock cc) 15 none true) (.chr isPiiChar)).run cc s) = [] := by
        rw [List.flatMap_eq_nil_iff]
        intro x hx
        obtain ⟨c, hc, hp⟩ := hst x hx
        exact hstuck x c hc (by simpa using hp)
      rw [this, List.append_nil]
      exact hX k
  show (List.flatMap _ ((Re.chr _).run cc s i)).Pairwise _
  rcases chr_run_cases (cc := cc) (p := fun c => c = 'S' || c = ',' || c = 'B') (s := s) (i := i) with h | ⟨h, hb⟩
  · rw [h]; exact .nil
  · rw [h, List.flatMap_cons, List.flatMap_nil, List.append_nil]
    exact hY (i + 1) hb

/-- **C149.** A PII found has all its digits. -/
theorem C149_pii_longest (cc : CharClass) (hw : ∀ c, piiDigit c = true → cc.isWord c = true) (isPunct : Char → Bool)
    (same : Char → Char → Bool) (lower : Str → Str) (s : Str) (a b : Nat) (h : (jatsEnvOf cc isPunct same lower).piiValid s = some (a, b))
    (u x v : Str) (hs : s = u ++ x ++ v) (ha : a = u.length) (hx : PiiForm cc x) : (u ++ x).length ≤ b := by
  have h : (piiValidPattern cc).search cc s = some (a, b) := h
  obtain ⟨u', y', x', z', v', e, e1, e2, hf, hh, _⟩ := Pattern.search_fits h
  obtain ⟨rfl, rfl, _, _⟩ := fits_pii.1 hf
  simp only [List.length_nil, Nat.add_zero] at e1
  rw [← e1] at hh
  have hi : a ≤ s.length := by rw [hs, ha]; simp
  obtain ⟨_, k, _, _, h3, _⟩ := head_flatMap hh
  have hhd : ((piiValidPattern cc).grp.run cc s k).head? = some b ∧ k = a := by
    have h3' : (((piiValidPattern cc).grp.run cc s k).map (fun l => (k, l))).head? = some (a, b) := by
      rw [List.map_eq_flatMap]
      exact h3
    rw [List.head?_map] at h3'
    obtain ⟨l', h5, h6⟩ := Option.map_eq_some_iff.1 h3'
    rw [h5]
    exact ⟨congrArg some (Prod.mk.inj h6).2, (Prod.mk.inj h6).1⟩
  obtain ⟨hhd, rfl⟩ := hhd
  refine head_greatest (piiValid_longest hw) hhd ((Re.mem_run hi).2 ?_)
  have := piiValid_fits (cc := cc) (u := u) (v := v).2 hx
  unfold Re.Fits at this
  rw [hs, ha]
  simpa using this

/-! ### Addresses of DOIs -/

theorem fits_doiUrl {cc : CharClass} {u y x z v : Str} :
    (doiUrlPrefixPattern cc).Fits cc u y x z v ↔ y = [] ∧ z = [] ∧ DoiUrl cc x := by
  have hsp : ∀ u x v, (reSpaces cc).Fits cc u x v ↔ Spaces cc x := fun u x v => Re.fits_star
  have ho : ∀ u x v, (Re.opt (.lit exactly c!"s")).Fits cc u x v ↔ x = [] ∨ x = c!"s" := by
    intro u x v
    rw [Re.fits_opt (fun h => by have := (sameLetters_exactly _ _).1 (Re.fits_lit.1 h); cases this), Re.fits_lit, sameLetters_exactly]
    exact or_congr .rfl eq_comm
  have hs : ∀ u x v, (Re.cat [.lit exactly c!"http", .opt (.lit exactly c!"s"), reSpaces cc, .lit exactly c!":", reSpaces cc, .lit exactly c!"/",
      reSpaces cc, .lit exactly c!"/", reSpaces cc]).Fits cc u x v ↔ Scheme cc x := by
    intro u x v
    simp only [Re.cat, Re.fits_seq, Re.fits_lit, ho, hsp, sameLetters_exactly]
    constructor
    · rintro ⟨_, _, rfl, rfl, o, _, rfl, h0, w1, _, rfl, h1, _, _, rfl, rfl, w2, _, rfl, h2, _, _, rfl, rfl, w3, _, rfl, h3, _, w4, rfl, rfl, h4⟩
      exact ⟨o, w1, w2, w3, w4, by simp, h0, h1, h2, h3, h4⟩
    · rintro ⟨o, w1, w2, w3, w4, rfl, h0, h1, h2, h3, h4⟩
      exact ⟨_, _, by simp only [List.append_assoc], rfl, o, _, rfl, h0, w1, _, rfl, h1, _, _, rfl, rfl, w2, _, rfl, h2, _, _, rfl, rfl, w3, _,
        rfl, h3, _, w4, rfl, rfl, h4⟩
  have hh : ∀ u x v, (Re.cat [.plus (fun c => 'a' ≤ c && c ≤ 'z'), reSpaces cc, .lit exactly c!".", reSpaces cc]).Fits cc u x v ↔ HostPart cc x := by
    intro u x v
    simp only [Re.cat, Re.fits_seq, Re.fits_lit, Re.fits_plus, hsp, sameLetters_exactly, Bool.and_eq_true, decide_eq_true_eq]
    constructor
    · rintro ⟨n, _, rfl, ⟨h0, h0'⟩, w1, _, rfl, h1, _, w2, rfl, rfl, h2⟩
      exact ⟨n, w1, w2, by simp, h0, h0', h1, h2⟩
    · rintro ⟨n, w1, w2, rfl, h0, h0', h1, h2⟩
      exact ⟨n, _, by simp only [List.append_assoc], ⟨h0, h0'⟩, w1, _, rfl, h1, _, w2, rfl, rfl, h2⟩
  have hsne : ∀ u v, ¬ (Re.cat [.lit exactly c!"http", .opt (.lit exactly c!"s"), reSpaces cc, .lit exactly c!":", reSpaces cc, .lit exactly c!"/",
      reSpaces cc, .lit exactly c!"/", reSpaces cc]).Fits cc u [] v := by
    intro u v h
    obtain ⟨o, w1, w2, w3, w4, e, _⟩ := (hs _ _ _).1 h
    simp at e
  have hhne : ∀ u v, ¬ (Re.cat [.plus (fun c => 'a' ≤ c && c ≤ 'z'), reSpaces cc, .lit exactly c!".", reSpaces cc]).Fits cc u [] v := by
    intro u v h
    obtain ⟨n, w1, w2, e, _⟩ := (hh _ _ _).1 h
    simp at e
  have hc : ∀ u x v, (Re.cat [.lit exactly c!"doi", reSpaces cc, .chr (fun c => c ≠ '\n'), reSpaces cc, .lit exactly c!"org", reSpaces cc,
      .lit exactly c!"/", reSpaces cc]).Fits cc u x v ↔ DoiOrg cc x := by
    intro u x v
    simp only [Re.cat, Re.fits_seq, Re.fits_lit, Re.fits_chr, hsp, sameLetters_exactly, decide_eq_true_eq]
    constructor
    · rintro ⟨_, _, rfl, rfl, w1, _, rfl, h1, _, _, rfl, ⟨k, rfl, hk⟩, w2, _, rfl, h2, _, _, rfl, rfl, w3, _, rfl, h3, _, w4, rfl, rfl, h4⟩
      exact ⟨w1, k, w2, w3, w4, by simp, hk, h1, h2, h3, h4⟩
    · rintro ⟨w1, k, w2, w3, w4, rfl, hk, h1, h2, h3, h4⟩
      exact ⟨_, _, by simp only [List.append_assoc], rfl, w1, _, rfl, h1, [k], _, rfl, ⟨k, rfl, hk⟩, w2, _, rfl, h2, _, _, rfl, rfl, w3, _, rfl, h3,
        _, w4, rfl, rfl, h4⟩
  have hgrp : (doiUrlPrefixPattern cc).grp = .seq (.opt (Re.cat [.lit exactly c!"http", .opt (.lit exactly c!"s"), reSpaces cc, .lit exactly c!":",
      reSpaces cc, .lit exactly c!"/", reSpaces cc, .lit exactly c!"/", reSpaces cc]))
      (.seq (.opt (Re.cat [.plus (fun c => 'a' ≤ c && c ≤ 'z'), reSpaces cc, .lit exactly c!".", reSpaces cc]))
        (Re.cat [.lit exactly c!"doi", reSpaces cc, .chr (fun c => c ≠ '\n'), reSpaces cc, .lit exactly c!"org", reSpaces cc,
          .lit exactly c!"/", reSpaces cc])) := rfl
  unfold Pattern.Fits
  rw [hgrp]
  simp only [doiUrlPrefixPattern, Re.fits_empty, Re.fits_seq, Re.fits_opt (hsne _ _), Re.fits_opt (hhne _ _), hs, hh, hc]
  constructor
  · rintro ⟨rfl, ⟨p, _, rfl, hp, h, c, rfl, hh', hc'⟩, rfl⟩
    exact ⟨rfl, rfl, p, h, c, by simp, hp, hh', hc'⟩
  · rintro ⟨rfl, rfl, p, h, c, rfl, hp, hh', hc'⟩
    exact ⟨rfl, ⟨p, _, by simp only [List.append_assoc], hp, h, c, rfl, hh', hc'⟩, rfl⟩

/-- **C149.** The start of the address of a DOI is found exactly if the text contains `doi.org/`, perhaps with white space. What
is found starts with the first one, with scheme and host if present, and is not followed by white space. -/
theorem C149_doi_url (cc : CharClass) (isPunct : Char → Bool) (same : Char → Char → Bool) (lower : Str → Str) (s : Str) :
    ((jatsEnvOf cc isPunct same lower).doiUrlPrefix s = none ↔ ∀ u x v, s = u ++ x ++ v → ¬ DoiOrg cc x) ∧
    ∀ a b, (jatsEnvOf cc isPunct same lower).doiUrlPrefix s = some (a, b) →
      ∃ u x v, s = u ++ x ++ v ∧ DoiUrl cc x ∧ a = u.length ∧ b = (u ++ x).length ∧ (∀ c, v.head? = some c → cc.isSpace c = false) ∧
        ∀ u' x' v', s = u' ++ x' ++ v' → DoiUrl cc x' → u.length ≤ u'.length := by
  show ((doiUrlPrefixPattern cc).search cc s = none ↔ _) ∧ ∀ a b, (doiUrlPrefixPattern cc).search cc s = some (a, b) → _
  refine ⟨?_, fun a b h => ?_⟩
  · rw [Pattern.search_none_iff]
    constructor
    · intro h u x v e h1
      exact h u [] x [] v (by simpa using e) (fits_doiUrl.2 ⟨rfl, rfl, [], [], x, rfl, .inl rfl, .inl rfl, h1⟩)
    · intro h u y x z v e hf
      obtain ⟨rfl, rfl, p, q, c, rfl, _, _, h1⟩ := fits_doiUrl.1 hf
      exact h (u ++ p ++ q) c v (by rw [e]; simp) h1
  · obtain ⟨u, y, x, z, v, e, e1, e2, hf, hh, hm⟩ := Pattern.search_fits h
    obtain ⟨rfl, rfl, h1⟩ := fits_doiUrl.1 hf
    simp only [List.append_nil, List.length_nil, Nat.add_zero] at e e1 e2
    refine ⟨u, x, v, e, h1, e1, by rw [e2]; simp, fun c hc => ?_, fun u' x' v' e' g1 => ?_⟩
    · obtain ⟨_, k, _, _, h3, _⟩ := head_flatMap hh
      have hhd : ((doiUrlPrefixPattern cc).grp.run cc s k).head? = some b ∧ k = a := by
        have h3' : (((doiUrlPrefixPattern cc).grp.run cc s k).map (fun l => (k, l))).head? = some (a, b) := by
          rw [List.map_eq_flatMap]
          exact h3
        rw [List.head?_map] at h3'
        obtain ⟨l', h5, h6⟩ := Option.map_eq_some_iff.1 h3'
        rw [h5]
        exact ⟨congrArg some (Prod.mk.inj h6).2, (Prod.mk.inj h6).1⟩
      obtain ⟨hhd, rfl⟩ := hhd
      have hgr : (doiUrlPrefixPattern cc).grp.EndsGreedy cc cc.isSpace := by
        show (Re.seq _ (Re.seq _ (Re.seq _ (Re.seq _ (Re.seq _ (Re.seq _ (Re.seq _ (Re.seq _ (Re.seq _ _))))))))).EndsGreedy cc _
        repeat apply Re.endsGreedy_seq
        exact Re.endsGreedy_rep
      refine hgr s k b (by rw [e1, e]; simp) hhd c ?_
      rw [e, e2, List.getElem?_append_right (by simp), ← hc, List.head?_eq_getElem?]
      simp
    · exact hm u' [] x' [] v' (by simpa using e') (fits_doiUrl.2 ⟨rfl, rfl, g1⟩)

theorem asciiClass_digitsPlain : DigitsPlain asciiClass := by
  refine ⟨fun c hc => ?_, by decide, by decide⟩
  have hv : '0' ≤ c ∧ c ≤ '9' := by simpa [asciiClass] using hc
  have h1 : 48 ≤ c.val.toNat ∧ c.val.toNat ≤ 57 := ⟨hv.1, hv.2⟩
  have key : ∀ d : Char, d.val.toNat < 48 ∨ 57 < d.val.toNat → c ≠ d := by
    intro d hd he; subst he; omega
  refine ⟨?_, key _ (by decide), key _ (by decide), key _ (by decide), key _ (by decide), key _ (by decide)⟩
  simp only [asciiClass, Bool.or_eq_false_iff, decide_eq_false_iff_not]
  exact ⟨⟨⟨key _ (by decide), key _ (by decide)⟩, key _ (by decide)⟩, key _ (by decide)⟩

/-- Not vacuous. -/
example : DigitsPlain asciiClass ∧ asciiClass.isWord '[' = false ∧ asciiClass.isWord '1' = true ∧
    (∀ c, piiDigit c = true → asciiClass.isWord c = true) ∧
    foundText c!"S1234-5678(90)12345-678 9" (exPatterns.piiValid c!"S1234-5678(90)12345-678 9") = some c!"S1234-5678(90)12345-678 9" ∧
    foundText c!"see 10.12/a or 10.1234.5/a b\nc" (doiSearch asciiClass none 0 c!"see 10.12/a or 10.1234.5/a b\nc") = some c!"10.1234.5/a b" ∧
    exPatterns.doiExtLink c!"a [10.1234/b] [10.1234/c] d" = some 14 ∧
    foundText c!"at https: //dx.doi.org/ 10." (exPatterns.doiUrlPrefix c!"at https: //dx.doi.org/ 10.") = some c!"https: //dx.doi.org/ " := by
  refine ⟨asciiClass_digitsPlain, by decide, by decide, fun c h => ?_, by decide +kernel⟩
  simp only [piiDigit, asciiClass, Bool.or_eq_true, Bool.and_eq_true, decide_eq_true_eq] at h ⊢
  rcases h with (h | rfl) | rfl
  · exact .inl (.inr h)
  · exact .inl (.inl (by decide))
  · exact .inl (.inl (by decide))

end Verif
