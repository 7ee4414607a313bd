/-
Lemmas about Model/JatsText.
-/
import Verif.Spec.JatsText
import Verif.Lemmas.PyStr
import Verif.Lemmas.ExtractRegex

namespace Verif

open Spec

/-! ### Prefixes -/

theorem rstripOf_prefix (p : Char → Bool) (s : Str) : rstripOf p s <+: s := by
  refine ⟨(s.reverse.takeWhile p).reverse, ?_⟩
  unfold rstripOf
  rw [← List.reverse_append, List.takeWhile_append_dropWhile, List.reverse_reverse]

theorem dropWhile_append_stop {p : Char → Bool} {x : Char} (hx : p x = false) (a b : Str) :
    (a ++ x :: b).dropWhile p = a.dropWhile p ++ x :: b := by
  induction a with
  | nil => simp [hx]
  | cons c a ih =>
    rw [List.cons_append, List.dropWhile_cons, List.dropWhile_cons]
    split
    · exact ih
    · rfl

/-- Stripping at the end stops at a character that is not stripped. -/
theorem keep_rstripOf {p : Char → Bool} {q : Str} {x : Char} (hx : p x = false) {s : Str} (h : q ++ [x] <+: s) :
    q ++ [x] <+: rstripOf p s := by
  obtain ⟨t, rfl⟩ := h
  unfold rstripOf
  rw [List.reverse_append, List.reverse_append, List.reverse_singleton, List.singleton_append, dropWhile_append_stop hx]
  rw [List.reverse_append, List.reverse_cons, List.reverse_reverse]
  exact ⟨_, rfl⟩

theorem rstrip_eq_rstripOf (cc : CharClass) (s : Str) : rstrip cc s = rstripOf cc.isSpace s := rfl

/-- Cutting at a character that is not in the prefix. -/
theorem keep_take {q s : Str} {i : Nat} {c : Char} (h : q <+: s) (hc : s[i]? = some c) (hq : c ∉ q) : q <+: s.take i := by
  have hle : q.length ≤ i := by
    apply Classical.byContradiction
    intro hn
    have hn : i < q.length := by omega
    obtain ⟨t, rfl⟩ := h
    rw [List.getElem?_append_left hn, List.getElem?_eq_getElem hn] at hc
    exact hq (by cases hc; exact List.getElem_mem hn)
  obtain ⟨t, rfl⟩ := h
  exact ⟨t.take (i - q.length), by rw [List.take_append, List.take_of_length_le hle]⟩

theorem keep_dropSuffix {q s e : Str} {c : Char} {e' : Str} (he : e = c :: e') (h : q <+: s) (hs : endsWith e s = true) (hq : c ∉ q) :
    q <+: s.take (s.length - e.length) := by
  unfold endsWith at hs
  rw [List.isSuffixOf_iff_suffix] at hs
  obtain ⟨t, rfl⟩ := hs
  refine keep_take (c := c) h ?_ hq
  subst he
  rw [List.length_append, Nat.add_sub_cancel, List.getElem?_append_right (Nat.le_refl _), Nat.sub_self]
  rfl

/-! ### The pattern -/

theorem doiRest_spec {cc : CharClass} {need : Bool} {r rest : Str} (h : doiRest cc need r = some rest) :
    ∃ p, r = p ++ '/' :: rest ∧ ∀ c ∈ p, cc.isDigit c = true ∨ c = '.' := by
  induction r generalizing need with
  | nil => cases h
  | cons c s ih =>
    unfold doiRest at h
    split at h
    · next hd =>
      obtain ⟨p, hp, ha⟩ := ih h
      refine ⟨c :: p, by rw [hp]; rfl, ?_⟩
      intro x hx
      rcases List.mem_cons.mp hx with rfl | hx
      · exact .inl hd
      · exact ha x hx
    · split at h
      · cases h
      · split at h
        · next hc =>
          obtain ⟨p, hp, ha⟩ := ih h
          refine ⟨c :: p, by rw [hp]; rfl, ?_⟩
          intro x hx
          rcases List.mem_cons.mp hx with rfl | hx
          · exact .inr hc
          · exact ha x hx
        · split at h
          · next hc => cases h; exact ⟨[], by rw [hc]; rfl, by simp⟩
          · cases h

theorem takeWhile_le {q : Char → Bool} {x : Char} (hx : q x = false) (p t : Str) : ((p ++ x :: t).takeWhile q).length ≤ p.length := by
  induction p with
  | nil => simp [hx]
  | cons c p ih =>
    rw [List.cons_append, List.takeWhile_cons]
    split
    · simpa using ih
    · simp

/-- What the pattern matches. -/
theorem doiAt_spec {cc : CharClass} (hcc : DigitsPlain cc) {s : Str} {n : Nat} (h : doiAt cc s = some n) :
    ∃ p q, s.take n = c!"10." ++ p ++ '/' :: q ∧ n ≤ s.length ∧ 4 ≤ p.length ∧ (∀ c ∈ p, cc.isDigit c = true ∨ c = '.') := by
  unfold doiAt at h
  split at h
  · next r =>
    split at h
    · cases h
    · next hlen =>
      split at h
      · cases h
      · next rest hr =>
        simp only [] at h
        split at h
        · cases h
        · cases h
          obtain ⟨p, hp, ha⟩ := doiRest_spec hr
          have hslash : cc.isDigit '/' = false := by
            cases hd : cc.isDigit '/' with
            | false => rfl
            | true => exact absurd rfl (hcc.digit _ hd).2.2.1
          have h4 := takeWhile_le (q := cc.isDigit) hslash p rest
          rw [← hp] at h4
          have hl : (rest.takeWhile (fun c => decide (c ≠ '\n'))).length ≤ rest.length :=
            (List.takeWhile_prefix (l := rest) _).length_le
          have hrl : r.length = p.length + 1 + rest.length := by rw [hp]; simp; omega
          refine ⟨p, rest.takeWhile (fun c => decide (c ≠ '\n')), ?_, ?_, by omega, ha⟩
          · obtain ⟨t, ht⟩ := List.takeWhile_prefix (l := rest) (fun c => decide (c ≠ '\n'))
            have h2 : r = p ++ ('/' :: rest.takeWhile (fun c => decide (c ≠ '\n'))) ++ t := by
              rw [hp, List.append_assoc, List.cons_append, ht]
            generalize rest.takeWhile (fun c => decide (c ≠ '\n')) = line at *
            have h3 : r.length - rest.length = p.length + 1 := by omega
            rw [h3]
            have : ('1' :: '0' :: '.' :: r) = (c!"10." ++ p ++ '/' :: line) ++ t := by rw [h2]; simp
            rw [this]
            apply List.take_left'
            simp; omega
          · simp only [List.length_cons]; omega
  · cases h

theorem doiSearch_spec {cc : CharClass} {prev : Option Char} {pos : Nat} {s : Str} {a b : Nat}
    (h : doiSearch cc prev pos s = some (a, b)) :
    ∃ pre rest n, s = pre ++ rest ∧ a = pos + pre.length ∧ b = a + n ∧ doiAt cc rest = some n := by
  induction s generalizing prev pos with
  | nil => cases h
  | cons c s ih =>
    unfold doiSearch at h
    split at h
    · next n hn =>
      cases h
      split at hn
      · exact ⟨[], c :: s, n, rfl, rfl, rfl, hn⟩
      · cases hn
    · obtain ⟨pre, rest, n, h1, h2, h3, h4⟩ := ih h
      exact ⟨c :: pre, rest, n, by rw [h1]; rfl, by rw [h2]; simp; omega, h3, h4⟩

theorem doiSearch_bounds {cc : CharClass} (hcc : DigitsPlain cc) {s : Str} {a b : Nat} (h : doiSearch cc none 0 s = some (a, b)) :
    a < b ∧ b ≤ s.length := by
  obtain ⟨pre, rest, n, h1, h2, h3, h4⟩ := doiSearch_spec h
  obtain ⟨p, q, h5, h6, -⟩ := doiAt_spec hcc h4
  have : (rest.take n).length = n := by simp; omega
  rw [h5] at this
  simp at this
  subst h1
  simp; omega

/-! ### The steps -/

theorem doiHead_not_mem {cc : CharClass} (hcc : DigitsPlain cc) (h1 : ∀ c ∈ c!"10.", cc.isSpace c = false) {p : Str}
    (hp : ∀ c ∈ p, cc.isDigit c = true ∨ c = '.') :
    ∀ c ∈ c!"10." ++ p ++ ['/'], cc.isSpace c = false ∧ c ≠ '(' ∧ c ≠ '[' ∧ c ≠ ' ' := by
  intro c hc
  rcases List.mem_append.mp hc with hc | hc
  · rcases List.mem_append.mp hc with hc | hc
    · exact ⟨h1 c hc, (by decide : ∀ c ∈ c!"10.", c ≠ '(' ∧ c ≠ '[' ∧ c ≠ ' ') c hc⟩
    · rcases hp c hc with hd | rfl
      · obtain ⟨a, -, -, b⟩ := hcc.digit c hd
        exact ⟨a, b⟩
      · exact ⟨hcc.dot, by decide⟩
  · rw [List.mem_singleton] at hc
    subst hc
    exact ⟨hcc.slash, by decide⟩

theorem rsplitSpace_spec {s a b : Str} (h : rsplitSpace s = some (a, b)) : s = a ++ ' ' :: b := by
  unfold rsplitSpace at h
  split at h
  · next hm =>
    cases h
    have hm' : ' ' ∈ s.reverse := List.mem_reverse.mpr hm
    rcases first_occurrence ' ' s.reverse with hn | ⟨f, r, hf, hnf⟩
    · exact absurd hm' hn
    · have htw : s.reverse.takeWhile (fun c => decide (c ≠ ' ')) = f := by
        rw [hf, List.takeWhile_append_of_pos (by
          intro x hx; simp; intro he; exact hnf (he ▸ hx))]
        simp
      have hs : s = r.reverse ++ ' ' :: f.reverse := by
        have := congrArg List.reverse hf
        simpa using this
      rw [htw]
      have hlen : s.length - f.reverse.length - 1 = r.reverse.length := by rw [hs]; simp; omega
      rw [hlen]
      conv => rhs; rw [hs, List.take_left]
      exact hs
  · cases h

theorem stripPii_spec (env : JatsTextEnv) {q' : Str} {x : Char} (hx : env.cc.isSpace x = false) (hq : ∀ c ∈ q' ++ [x], c ≠ '[' ∧ c ≠ ' ')
    {s : Str} (h : q' ++ [x] <+: s) :
    q' ++ [x] <+: stripPiiFromDoi env s ∧ stripPiiFromDoi env s <+: s := by
  unfold stripPiiFromDoi
  cases hs : endsWith c!"[pii]" s with
  | false => exact ⟨h, List.prefix_refl _⟩
  | true =>
    have hk := keep_dropSuffix (c := '[') (e' := c!"pii]") rfl h hs (fun hm => (hq _ hm).1 rfl)
    have h1 : q' ++ [x] <+: rstrip env.cc (s.take (s.length - 5)) := keep_rstripOf hx hk
    have h2 : rstrip env.cc (s.take (s.length - 5)) <+: s := (rstripOf_prefix _ _).trans (List.take_prefix _ _)
    simp only [Bool.not_true, Bool.false_eq_true, if_false]
    generalize rstrip env.cc (s.take (s.length - 5)) = d at *
    cases hsp : rsplitSpace d with
    | none => exact ⟨h1, h2⟩
    | some ab =>
      obtain ⟨a, b⟩ := ab
      simp only []
      have hd := rsplitSpace_spec hsp
      have ha : a <+: d := ⟨' ' :: b, hd.symm⟩
      have h3 : q' ++ [x] <+: a := by
        have := keep_take (i := a.length) (c := ' ') h1 (by rw [hd]; simp) (fun hm => (hq _ hm).2 rfl)
        rw [hd, List.take_left] at this
        exact this
      have hA : q' ++ [x] <+: rstrip env.cc a ∧ rstrip env.cc a <+: s :=
        ⟨keep_rstripOf hx h3, (rstripOf_prefix _ _).trans (ha.trans h2)⟩
      have hD : q' ++ [x] <+: d ∧ d <+: s := ⟨h1, h2⟩
      split
      · exact hD
      · split
        · exact hA
        · split
          · exact hD
          · split
            · exact hA
            · exact hD

theorem removeDuplicate_spec (env : JatsTextEnv) (hs : env.cc.isSpace '/' = false) {q' : Str} (hq : '/' ∉ q')
    {s : Str} (h : q' ++ ['/'] <+: s) :
    ∃ r, removeDuplicateDoi env s = .ok r ∧ q' ++ ['/'] <+: r ∧ r <+: s := by
  obtain ⟨t, rfl⟩ := h
  unfold removeDuplicateDoi
  rw [show q' ++ ['/'] ++ t = q' ++ '/' :: t by simp, splitOnce_append '/' q' t hq]
  simp only []
  cases hd : doiSearch env.cc none 0 t with
  | none => exact ⟨_, rfl, ⟨t, by simp⟩, List.prefix_refl _⟩
  | some ab =>
    obtain ⟨o, e⟩ := ab
    simp only []
    have h1 : q' ++ ['/'] <+: q' ++ '/' :: t.take o := ⟨t.take o, by simp⟩
    have h2 : q' ++ '/' :: t.take o <+: q' ++ '/' :: t := ⟨t.drop o, by simp⟩
    have hA : q' ++ ['/'] <+: rstrip env.cc (q' ++ '/' :: t.take o) ∧
        rstrip env.cc (q' ++ '/' :: t.take o) <+: q' ++ '/' :: t :=
      ⟨keep_rstripOf hs h1, (rstripOf_prefix _ _).trans h2⟩
    split
    · exact ⟨_, rfl, hA⟩
    · split
      · exact ⟨_, rfl, hA⟩
      · exact ⟨_, rfl, ⟨t, by simp⟩, List.prefix_refl _⟩

theorem truncate_spec (env : JatsTextEnv) (ht : TruncatesAtGap env) {q' : Str} {x : Char} (hx : env.cc.isSpace x = false)
    (hx2 : x ≠ '.') (hq : ∀ c ∈ q' ++ [x], env.cc.isSpace c = false ∧ c ≠ '(') {s : Str} (h : q' ++ [x] <+: s) :
    q' ++ [x] <+: truncateDoi env s ∧ truncateDoi env s <+: s := by
  unfold truncateDoi
  cases hi : env.truncateAt s with
  | none => exact ⟨h, List.prefix_refl _⟩
  | some i =>
    obtain ⟨c, hc, hcs⟩ := ht s i hi
    simp only []
    have h1 : q' ++ [x] <+: s.take i := keep_take h hc (by
      intro hm
      obtain ⟨a, b⟩ := hq c hm
      rcases hcs with hcs | hcs
      · rw [a] at hcs; cases hcs
      · exact b hcs)
    exact ⟨keep_rstripOf (by simpa using hx2) (keep_rstripOf hx h1),
      (rstripOf_prefix _ _).trans ((rstripOf_prefix _ _).trans (List.take_prefix _ _))⟩

/-- The result of `find_doi_start_end`. -/
theorem findDoi_spec (env : JatsTextEnv) (hcc : DigitsPlain env.cc) (h10 : ∀ c ∈ c!"10.", env.cc.isSpace c = false)
    (ht : TruncatesAtGap env) (text : Str) :
    findDoi env text = .ok none ∨ ∃ a b, findDoi env text = .ok (some (a, b)) ∧ a < b ∧ b ≤ text.length ∧
      IsDoi env.cc (sliceStr text a b) ∧ ∃ e, doiSearch env.cc none 0 text = some (a, e) ∧ b ≤ e := by
  unfold findDoi
  cases hs : doiSearch env.cc none 0 text with
  | none => exact .inl rfl
  | some ab =>
    obtain ⟨a, e⟩ := ab
    right
    simp only []
    obtain ⟨pre, rest, n, h1, h2, h3, h4⟩ := doiSearch_spec hs
    obtain ⟨p, q, h5, h6, h7, h8⟩ := doiAt_spec hcc h4
    have hsl : sliceStr text a e = rest.take n := by
      unfold sliceStr
      have ha : a = pre.length := by omega
      rw [h1, List.take_append, List.take_of_length_le (by omega), ha, List.drop_left]
      congr 1; omega
    have hmem := doiHead_not_mem hcc h10 h8
    have hP : c!"10." ++ p ++ ['/'] <+: sliceStr text a e := by rw [hsl, h5]; exact ⟨q, by simp⟩
    have hpre0 : sliceStr text a e <+: rest := by rw [hsl]; exact List.take_prefix _ _
    have hnslash : '/' ∉ c!"10." ++ p := by
      intro hm
      rcases List.mem_append.mp hm with hm | hm
      · exact absurd hm (by decide)
      · rcases h8 _ hm with hd | hd
        · exact (hcc.digit _ hd).2.2.1 rfl
        · exact absurd hd (by decide)
    have hlen0 : (sliceStr text a e).length = n := by rw [hsl]; simp; omega
    generalize hd0 : sliceStr text a e = d0 at *
    -- stripping
    have k1 : c!"10." ++ p ++ ['/'] <+: rstrip env.cc (rstripOf (fun c => decide (c = '.')) (rstrip env.cc d0)) :=
      keep_rstripOf hcc.slash (keep_rstripOf (by decide) (keep_rstripOf hcc.slash hP))
    have l1 : rstrip env.cc (rstripOf (fun c => decide (c = '.')) (rstrip env.cc d0)) <+: d0 :=
      (rstripOf_prefix _ _).trans ((rstripOf_prefix _ _).trans (rstripOf_prefix _ _))
    generalize rstrip env.cc (rstripOf (fun c => decide (c = '.')) (rstrip env.cc d0)) = d1 at *
    obtain ⟨k2, l2⟩ := truncate_spec env ht hcc.slash (by decide) (fun c hc => ⟨(hmem c hc).1, (hmem c hc).2.1⟩) k1
    generalize truncateDoi env d1 = d2 at *
    have k3 : c!"10." ++ p ++ ['/'] <+: (if endsWith c!"[doi]" d2 = true then rstrip env.cc (d2.take (d2.length - 5)) else d2) ∧
        (if endsWith c!"[doi]" d2 = true then rstrip env.cc (d2.take (d2.length - 5)) else d2) <+: d2 := by
      split
      · next he =>
        have := keep_dropSuffix (c := '[') (e' := c!"doi]") rfl k2 he (fun hm => (hmem _ hm).2.2.1 rfl)
        exact ⟨keep_rstripOf hcc.slash this, (rstripOf_prefix _ _).trans (List.take_prefix _ _)⟩
      · exact ⟨k2, List.prefix_refl _⟩
    generalize (if endsWith c!"[doi]" d2 = true then rstrip env.cc (d2.take (d2.length - 5)) else d2) = d3 at *
    obtain ⟨k4, l4⟩ := stripPii_spec env hcc.slash (fun c hc => ⟨(hmem c hc).2.2.1, (hmem c hc).2.2.2⟩) k3.1
    generalize stripPiiFromDoi env d3 = d4 at *
    obtain ⟨d5, he5, k5, l5⟩ := removeDuplicate_spec env hcc.slash hnslash k4
    rw [he5]
    simp only []
    have k6 : c!"10." ++ p ++ ['/'] <+: rstripOf (fun c => decide (c = ';')) d5 := keep_rstripOf (by decide) k5
    have l6 := rstripOf_prefix (fun c => decide (c = ';')) d5
    generalize rstripOf (fun c => decide (c = ';')) d5 = d6 at *
    have k7 : c!"10." ++ p ++ ['/'] <+: (if d6.count ']' > d6.count '[' then rstrip env.cc (rstripOf (fun c => decide (c = ']')) d6) else d6) ∧
        (if d6.count ']' > d6.count '[' then rstrip env.cc (rstripOf (fun c => decide (c = ']')) d6) else d6) <+: d6 := by
      split
      · exact ⟨keep_rstripOf hcc.slash (keep_rstripOf (by decide) k6), (rstripOf_prefix _ _).trans (rstripOf_prefix _ _)⟩
      · exact ⟨k6, List.prefix_refl _⟩
    generalize (if d6.count ']' > d6.count '[' then rstrip env.cc (rstripOf (fun c => decide (c = ']')) d6) else d6) = d7 at *
    have l7 : d7 <+: d0 := k7.2.trans (l6.trans (l5.trans (l4.trans (k3.2.trans (l2.trans l1)))))
    have hslice : sliceStr text a (a + d7.length) = d7 := by
      obtain ⟨t, ht⟩ := l7.trans hpre0
      unfold sliceStr
      have ha : a = pre.length := by omega
      rw [h1, ← ht, ha, List.take_append, List.take_of_length_le (by omega), List.drop_left]
      rw [Nat.add_sub_cancel_left, List.take_left]
    rw [if_pos hslice]
    have hl7 : d7.length ≤ n := by rw [← hlen0]; exact l7.length_le
    have hne : 0 < d7.length := by
      have := k7.1.length_le
      simp at this; omega
    refine ⟨a, a + d7.length, rfl, by omega, ?_, ?_, e, rfl, by omega⟩
    · rw [h1]; simp; omega
    · rw [hslice]
      obtain ⟨t, ht⟩ := k7.1
      exact ⟨p, t, by rw [← ht]; simp, h7, h8⟩

theorem strIn_iff (x s : Str) : strIn x s = true ↔ x <:+: s := by
  induction s with
  | nil => simp [strIn]
  | cons c s ih =>
    unfold strIn
    rw [Bool.or_eq_true, ih, List.infix_cons_iff]
    unfold startsWith
    rw [List.isPrefixOf_iff_prefix]

/-! ### URLs -/

/-- Positions of the matches, without skipping. -/
def urlHeads : Nat → Str → List Nat
  | _, [] => []
  | pos, c :: s =>
    if startsWith c!"https://" (c :: s) || startsWith c!"http://" (c :: s) then pos :: urlHeads (pos + 1) s
    else urlHeads (pos + 1) s

theorem urlHeads_no_h (pos : Nat) (x r : Str) (h : 'h' ∉ x) : urlHeads pos (x ++ r) = urlHeads (pos + x.length) r := by
  induction x generalizing pos with
  | nil => rfl
  | cons c x ih =>
    have hc : c ≠ 'h' := fun he => h (he ▸ List.mem_cons_self)
    rw [List.cons_append, urlHeads, if_neg (by
      simp only [startsWith, List.isPrefixOf, Bool.or_eq_true, Bool.and_eq_true, beq_iff_eq]
      rintro (⟨h, -⟩ | ⟨h, -⟩) <;> exact hc h.symm)]
    rw [ih _ (fun hm => h (List.mem_cons_of_mem _ hm)), List.length_cons]
    congr 1; omega

theorem urlStarts_skip (k pos : Nat) (x r : Str) (hk : x.length = k) : urlStarts k pos (x ++ r) = urlStarts 0 (pos + k) r := by
  induction k generalizing pos x with
  | zero => rw [List.length_eq_zero_iff.mp hk]; rfl
  | succ k ih =>
    cases x with
    | nil => cases hk
    | cons c x =>
      rw [List.cons_append, urlStarts, ih (pos + 1) x (by simpa using hk)]
      congr 1; omega

theorem urlStarts_eq (s : Str) : ∀ pos, urlStarts 0 pos s = urlHeads pos s := by
  induction hn : s.length using Nat.strongRecOn generalizing s with
  | _ n ih =>
    intro pos
    cases s with
    | nil => rfl
    | cons c s =>
      unfold urlStarts urlHeads
      cases h1 : startsWith c!"https://" (c :: s) with
      | true =>
        unfold startsWith at h1
        rw [List.isPrefixOf_iff_prefix] at h1
        obtain ⟨r, hr⟩ := h1
        have hs : s = c!"ttps://" ++ r := by
          have := congrArg List.tail hr
          simpa using this.symm
        simp only [if_true, Bool.true_or]
        rw [hs, urlStarts_skip 7 _ c!"ttps://" r rfl, urlHeads_no_h _ c!"ttps://" r (by decide)]
        rw [ih r.length (by rw [← hn, hs]; simp; omega) r rfl]
        rfl
      | false =>
        cases h2 : startsWith c!"http://" (c :: s) with
        | true =>
          unfold startsWith at h2
          rw [List.isPrefixOf_iff_prefix] at h2
          obtain ⟨r, hr⟩ := h2
          have hs : s = c!"ttp://" ++ r := by
            have := congrArg List.tail hr
            simpa using this.symm
          simp only [Bool.false_eq_true, if_false, if_true, Bool.or_true]
          rw [hs, urlStarts_skip 6 _ c!"ttp://" r rfl, urlHeads_no_h _ c!"ttp://" r (by decide)]
          rw [ih r.length (by rw [← hn, hs]; simp; omega) r rfl]
          rfl
        | false =>
          simp only [Bool.false_eq_true, if_false, Bool.or_false]
          exact ih s.length (by rw [← hn]; simp) s rfl (pos + 1)

theorem startsUrl_iff (s : Str) : (startsWith c!"https://" s || startsWith c!"http://" s) = true ↔ StartsUrl s := by
  unfold startsWith StartsUrl
  rw [Bool.or_eq_true, List.isPrefixOf_iff_prefix, List.isPrefixOf_iff_prefix]
  exact ⟨fun h => h.elim .inr .inl, fun h => h.elim .inr .inl⟩

theorem mem_urlHeads (s : Str) (pos i : Nat) : i ∈ urlHeads pos s ↔ ∃ k, i = pos + k ∧ k < s.length ∧ StartsUrl (s.drop k) := by
  induction s generalizing pos with
  | nil => simp [urlHeads]
  | cons c s ih =>
    have hrest : i ∈ urlHeads (pos + 1) s ↔ ∃ k, i = pos + (k + 1) ∧ k + 1 < (c :: s).length ∧ StartsUrl ((c :: s).drop (k + 1)) := by
      rw [ih]
      constructor
      · rintro ⟨k, h1, h2, h3⟩; exact ⟨k, by omega, by simpa using h2, h3⟩
      · rintro ⟨k, h1, h2, h3⟩; exact ⟨k, by omega, by simpa using h2, h3⟩
    unfold urlHeads
    split
    · next h =>
      rw [startsUrl_iff] at h
      rw [List.mem_cons, hrest]
      constructor
      · rintro (rfl | ⟨k, h1⟩)
        · exact ⟨0, by omega, by simp, h⟩
        · exact ⟨k + 1, h1⟩
      · rintro ⟨k, h1, h2⟩
        cases k with
        | zero => exact .inl (by omega)
        | succ k => exact .inr ⟨k, h1, h2⟩
    · next h =>
      rw [startsUrl_iff] at h
      rw [hrest]
      constructor
      · rintro ⟨k, h1⟩; exact ⟨k + 1, h1⟩
      · rintro ⟨k, h1, h2, h3⟩
        cases k with
        | zero => exact absurd h3 h
        | succ k => exact ⟨k, h1, h2, h3⟩

theorem urlHeads_sorted (s : Str) (pos : Nat) : (urlHeads pos s).Pairwise (· < ·) := by
  induction s generalizing pos with
  | nil => exact .nil
  | cons c s ih =>
    unfold urlHeads
    split
    · refine .cons ?_ (ih _)
      intro i hi
      obtain ⟨k, hk, -⟩ := (mem_urlHeads ..).mp hi
      omega
    · exact ih _

theorem sliceStr_drop_append (url : Str) {pos k start : Nat} (h1 : pos + k ≤ start) :
    (sliceStr url pos start).drop k ++ url.drop start = url.drop (pos + k) := by
  unfold sliceStr
  rw [List.drop_drop]
  have := List.take_append_drop (start - (pos + k)) (url.drop (pos + k))
  rw [List.drop_drop, Nat.add_sub_cancel' h1, List.take_drop, Nat.add_sub_cancel' h1] at this
  exact this

/-- The pieces are cut at the starts. -/
theorem splitUrlLoop_spec (url : Str) : ∀ (starts : List Nat) (pos : Nat), pos ≤ url.length →
    (∀ i ∈ starts, pos ≤ i ∧ i < url.length) → starts.Pairwise (· < ·) →
    (∀ i, pos < i → i < url.length → (i ∈ starts ↔ StartsUrl (url.drop i))) →
    (splitUrlLoop url starts pos).flatten = url.drop pos ∧
      ∀ a p b, splitUrlLoop url starts pos = a ++ p :: b → p ≠ [] ∧ (a ≠ [] → StartsUrl (p ++ b.flatten)) ∧
        ∀ k, 0 < k → k < p.length → ¬ StartsUrl (p.drop k ++ b.flatten) := by
  intro starts
  induction starts with
  | nil =>
    intro pos hpos _ _ hH
    unfold splitUrlLoop
    split
    · next hlt =>
      refine ⟨by simp, ?_⟩
      intro a p b hab
      cases a with
      | cons _ a => simp at hab
      | nil =>
        cases hab
        refine ⟨by simpa using hlt, fun h => absurd rfl h, ?_⟩
        intro k hk hkl
        rw [List.flatten_nil, List.append_nil, List.drop_drop]
        intro hs
        rw [List.length_drop] at hkl
        exact absurd ((hH (pos + k) (by omega) (by omega)).mpr hs) List.not_mem_nil
    · next hge =>
      refine ⟨by rw [List.drop_of_length_le (by omega)]; rfl, ?_⟩
      intro a p b hab
      simp at hab
  | cons start starts ih =>
    intro pos hpos hb hsort hH
    rw [List.pairwise_cons] at hsort
    have hst := hb start List.mem_cons_self
    have hb' : ∀ i ∈ starts, start ≤ i ∧ i < url.length := fun i hi =>
      ⟨Nat.le_of_lt (hsort.1 i hi), (hb i (List.mem_cons_of_mem _ hi)).2⟩
    have hH' : ∀ i, start < i → i < url.length → (i ∈ starts ↔ StartsUrl (url.drop i)) := by
      intro i h1 h2
      rw [← hH i (by omega) h2, List.mem_cons]
      exact ⟨.inr, fun h => h.elim (fun h => by omega) id⟩
    obtain ⟨ih1, ih2⟩ := ih start (by omega) hb' hsort.2 hH'
    unfold splitUrlLoop
    split
    · next hlt =>
      rw [List.singleton_append]
      constructor
      · rw [List.flatten_cons, ih1]
        have := sliceStr_drop_append url (k := 0) (pos := pos) (start := start) (by omega)
        simpa using this
      · intro a p b hab
        cases a with
        | nil =>
          rw [List.nil_append] at hab
          cases hab
          have hlen : (sliceStr url pos start).length = start - pos := by
            unfold sliceStr; simp; omega
          refine ⟨?_, fun h => absurd rfl h, ?_⟩
          · intro he
            rw [he] at hlen
            simp at hlen; omega
          · intro k hk hkl
            rw [hlen] at hkl
            rw [ih1, sliceStr_drop_append url (by omega)]
            intro hs
            have := (hH (pos + k) (by omega) (by omega)).mpr hs
            rcases List.mem_cons.mp this with h | h
            · omega
            · have := hsort.1 _ h; omega
        | cons x a =>
          rw [List.cons_append] at hab
          injection hab with hx hab
          obtain ⟨h1, h2, h3⟩ := ih2 a p b hab
          refine ⟨h1, fun _ => ?_, h3⟩
          cases a with
          | nil =>
            rw [List.nil_append] at hab
            have hfl : p ++ b.flatten = url.drop start := by rw [← ih1, hab]; rfl
            rw [hfl]
            exact (hH start hlt hst.2).mp List.mem_cons_self
          | cons _ _ => exact h2 (by simp)
    · next hge =>
      have hpe : pos = start := by omega
      rw [List.nil_append, hpe]
      exact ⟨ih1, ih2⟩

theorem splitUrl_spec (url : Str) :
    (splitUrl url).flatten = url ∧
      ∀ a p b, splitUrl url = a ++ p :: b → p ≠ [] ∧ (a ≠ [] → StartsUrl (p ++ b.flatten)) ∧
        ∀ k, 0 < k → k < p.length → ¬ StartsUrl (p.drop k ++ b.flatten) := by
  unfold splitUrl
  rw [urlStarts_eq]
  have := splitUrlLoop_spec url (urlHeads 0 url) 0 (Nat.zero_le _) (by
    intro i hi
    obtain ⟨k, h1, h2, -⟩ := (mem_urlHeads ..).mp hi
    omega) (urlHeads_sorted url 0) (by
    intro i _ hi
    rw [mem_urlHeads]
    constructor
    · rintro ⟨k, h1, _, h3⟩
      rw [h1, Nat.zero_add]; exact h3
    · intro h; exact ⟨i, by omega, hi, h⟩)
  rw [List.drop_zero] at this
  exact this

end Verif
