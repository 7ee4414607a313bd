import Verif.Model.TargetText
import Verif.Spec.TargetText

namespace Verif

open Spec

/-! ### Replacing in a string -/

theorem strReplaceGo_skip (old new : Str) (k : Nat) (s : Str) :
    strReplaceGo old new k s = strReplaceGo old new 0 (s.drop k) := by
  induction s generalizing k with
  | nil => cases k <;> simp [strReplaceGo]
  | cons c s ih =>
    cases k with
    | zero => rfl
    | succ k => rw [strReplaceGo, ih]; rfl

theorem strReplace_hit1 (a c : Char) (s : Str) :
    strReplace [a] [c] (a :: s) = c :: strReplace [a] [c] s := by
  unfold strReplace
  rw [strReplaceGo, if_pos (by simp [startsWith])]
  rfl

theorem strReplace_miss1 (a c x : Char) (s : Str) (h : x ≠ a) :
    strReplace [a] [c] (x :: s) = x :: strReplace [a] [c] s := by
  unfold strReplace
  rw [strReplaceGo, if_neg]
  simp only [startsWith, List.isPrefixOf]
  simp [Ne.symm h]

theorem strReplace_one (a c : Char) (s : Str) :
    strReplace [a] [c] s = s.map (fun x => if x = a then c else x) := by
  induction s with
  | nil => rfl
  | cons x s ih =>
    by_cases h : x = a
    · subst h; rw [strReplace_hit1, ih]; simp
    · rw [strReplace_miss1 _ _ _ _ h, ih]; simp [h]

theorem strReplace_hit2 (a b : Char) (new s : Str) :
    strReplace [a, b] new (a :: b :: s) = new ++ strReplace [a, b] new s := by
  unfold strReplace
  rw [strReplaceGo, if_pos (by simp [startsWith])]
  rfl

theorem strReplace_miss2 (a b x : Char) (new s : Str) (h : ¬ (x = a ∧ s.head? = some b)) :
    strReplace [a, b] new (x :: s) = x :: strReplace [a, b] new s := by
  unfold strReplace
  rw [strReplaceGo, if_neg]
  intro hp
  apply h
  cases s with
  | nil => simp [startsWith, List.isPrefixOf] at hp
  | cons y s =>
    simp [startsWith, List.isPrefixOf] at hp
    exact ⟨hp.1.symm, by simp [hp.2]⟩

/-- No two neighbouring characters `x y`. -/
def NoPair (x y : Char) : Str → Prop
  | [] => True
  | z :: s => ¬ (z = x ∧ s.head? = some y) ∧ NoPair x y s

theorem noPair_iff (x y : Char) (s : Str) : NoPair x y s ↔ ¬ ∃ u v, s = u ++ x :: y :: v := by
  induction s with
  | nil => simp [NoPair]
  | cons z s ih =>
    rw [NoPair, ih]
    constructor
    · rintro ⟨h1, h2⟩ ⟨u, v, he⟩
      cases u with
      | nil => simp at he; exact h1 ⟨he.1, by rw [he.2]; rfl⟩
      | cons w u => simp at he; exact h2 ⟨u, v, he.2⟩
    · intro h
      refine ⟨?_, ?_⟩
      · rintro ⟨rfl, hh⟩
        cases s with
        | nil => simp at hh
        | cons w s => simp at hh; subst hh; exact h ⟨[], s, rfl⟩
      · rintro ⟨u, v, he⟩
        exact h ⟨z :: u, v, by rw [he]; rfl⟩

/-- Strong induction following the replacement of two characters. -/
theorem pairInd (a b : Char) {P : Str → Prop} (nil : P []) (hit : ∀ s, P s → P (a :: b :: s))
    (miss : ∀ x s, ¬ (x = a ∧ s.head? = some b) → P s → P (x :: s)) (s : Str) : P s := by
  generalize hn : s.length = n
  induction n using Nat.strongRecOn generalizing s with
  | _ n ih =>
    cases s with
    | nil => exact nil
    | cons x s =>
      by_cases h : x = a ∧ s.head? = some b
      · obtain ⟨rfl, hh⟩ := h
        cases s with
        | nil => simp at hh
        | cons y s =>
          simp at hh
          subst hh
          exact hit s (ih s.length (by simp at hn; omega) s rfl)
      · exact miss x s h (ih s.length (by simp at hn; omega) s rfl)

theorem strReplace_head (a b c y : Char) (s : Str) (hy : y = c → a = c)
    (h : (strReplace [a, b] [c] s).head? = some y) : s.head? = some y := by
  induction s using pairInd a b with
  | nil => exact absurd h (by simp [strReplace, strReplaceGo])
  | hit s ih =>
    rw [strReplace_hit2] at h
    simp at h
    subst h
    rw [hy rfl]; rfl
  | miss x s hm ih =>
    rw [strReplace_miss2 _ _ _ _ _ hm] at h
    exact h

theorem noPair_strReplace (a b c x y : Char) (s : Str) (hy : y = c → a = c) (hx : x = c → b = c)
    (h : NoPair x y s) : NoPair x y (strReplace [a, b] [c] s) := by
  induction s using pairInd a b with
  | nil => exact trivial
  | hit s ih =>
    rw [strReplace_hit2]
    refine ⟨?_, ih h.2.2⟩
    rintro ⟨hc, hh⟩
    have := strReplace_head a b c y s hy hh
    exact h.2.1 ⟨by rw [hx hc.symm, hc], this⟩
  | miss z s hm ih =>
    rw [strReplace_miss2 _ _ _ _ _ hm]
    refine ⟨?_, ih h.2⟩
    rintro ⟨hz, hh⟩
    exact h.1 ⟨hz, strReplace_head a b c y s hy hh⟩

theorem strReplace_shrinks (a b c : Char) (s : Str) :
    (NoPair a b s ∧ strReplace [a, b] [c] s = s) ∨ (strReplace [a, b] [c] s).length < s.length := by
  induction s using pairInd a b with
  | nil => exact .inl ⟨trivial, rfl⟩
  | hit s ih =>
    right
    rw [strReplace_hit2]
    rcases ih with ⟨_, ih⟩ | ih
    · rw [ih]; simp
    · simp; omega
  | miss x s hm ih =>
    rw [strReplace_miss2 _ _ _ _ _ hm]
    rcases ih with ⟨h1, ih⟩ | ih
    · exact .inl ⟨⟨hm, h1⟩, by rw [ih]⟩
    · right; simp; omega

/-! ### Repeated replacement -/

theorem replaceRecLoop_inv (old new : Str) (P : Str → Prop) (hP : ∀ s, P s → P (strReplace old new s))
    (fuel : Nat) (s : Str) (h : P s) : P (replaceRecLoop old new fuel s) := by
  induction fuel generalizing s with
  | zero => exact h
  | succ n ih =>
    simp only [replaceRecLoop]
    split
    · exact h
    · exact ih _ (hP s h)

theorem replaceRecursive_inv (old new : Str) (P : Str → Prop) (hP : ∀ s, P s → P (strReplace old new s))
    (s : Str) (h : P s) : P (replaceRecursive old new s) := replaceRecLoop_inv old new P hP _ s h

theorem replaceRecLoop_fix (old new : Str) (μ : Str → Nat)
    (hμ : ∀ s, strReplace old new s = s ∨ μ (strReplace old new s) < μ s)
    (fuel : Nat) (s : Str) (h : μ s < fuel) :
    strReplace old new (replaceRecLoop old new fuel s) = replaceRecLoop old new fuel s := by
  induction fuel generalizing s with
  | zero => omega
  | succ n ih =>
    simp only [replaceRecLoop]
    split
    · assumption
    · next hne =>
      refine ih _ ?_
      rcases hμ s with h1 | h1
      · exact absurd h1 hne
      · omega

theorem replaceRecursive_fix2 (a b c : Char) (s : Str) :
    strReplace [a, b] [c] (replaceRecursive [a, b] [c] s) = replaceRecursive [a, b] [c] s := by
  refine replaceRecLoop_fix _ _ List.length (fun s => ?_) _ s (by omega)
  rcases strReplace_shrinks a b c s with ⟨_, h⟩ | h
  · exact .inl h
  · exact .inr h

theorem noPair_replaceRecursive (a b c : Char) (s : Str) : NoPair a b (replaceRecursive [a, b] [c] s) := by
  have hf := replaceRecursive_fix2 a b c s
  rcases strReplace_shrinks a b c (replaceRecursive [a, b] [c] s) with ⟨h, _⟩ | h
  · exact h
  · rw [hf] at h; omega

theorem replaceRecursive_one (a c : Char) (hac : c ≠ a) (s : Str) :
    replaceRecursive [a] [c] s = s.map (fun x => if x = a then c else x) := by
  have hidem : ∀ s : Str, strReplace [a] [c] (strReplace [a] [c] s) = strReplace [a] [c] s := by
    intro s
    simp only [strReplace_one, List.map_map]
    apply List.map_congr_left
    intro x _
    by_cases hx : x = a
    · simp [hx, hac]
    · simp [hx]
  rw [← strReplace_one]
  cases s with
  | nil => rfl
  | cons x s =>
    unfold replaceRecursive
    simp only [List.length_cons, replaceRecLoop]
    split
    · next h => exact h.symm
    · rw [if_pos (hidem _)]

/-! ### Normal form -/

theorem isBlankChar_iff (c : Char) : isBlankChar c = true ↔ c = '\n' ∨ c = '\r' ∨ c = ' ' ∨ c = '\t' := by
  simp [isBlankChar, isBreak, or_assoc]

theorem collapseFrom_map (f : Char → Char) (hb : ∀ c, isBlankChar (f c) = isBlankChar c)
    (hk : ∀ c, isBreak (f c) = isBreak c) (hf : ∀ c, isBlankChar c = false → f c = c) (p : Option Bool) (s : Str) :
    collapseFrom p (s.map f) = collapseFrom p s := by
  induction s generalizing p with
  | nil => rfl
  | cons c s ih =>
    simp only [List.map_cons, collapseFrom, hb, hk, ih]
    cases hc : isBlankChar c with
    | true => rfl
    | false => simp [hf c hc]

/-- Replacing two white space characters by one of the same kind does not change the result. -/
theorem collapseFrom_strReplace (a b c : Char) (ha : isBlankChar a = true) (hb : isBlankChar b = true)
    (hc : isBlankChar c = true) (hk : (isBreak a || isBreak b) = isBreak c) (p : Option Bool) (s : Str) :
    collapseFrom p (strReplace [a, b] [c] s) = collapseFrom p s := by
  induction s using pairInd a b generalizing p with
  | nil => rfl
  | hit s ih =>
    rw [strReplace_hit2]
    simp only [List.singleton_append, collapseFrom, ha, hb, hc, if_true, ih]
    cases p <;> simp [← hk, Bool.or_assoc]
  | miss x s hm ih =>
    rw [strReplace_miss2 _ _ _ _ _ hm]
    simp only [collapseFrom, ih]

/-- Runs of white space have length one. -/
def Collapsed (s : Str) : Prop :=
  '\t' ∉ s ∧ '\r' ∉ s ∧ NoPair ' ' ' ' s ∧ NoPair ' ' '\n' s ∧ NoPair '\n' ' ' s ∧ NoPair '\n' '\n' s

theorem collapsed_tail {c : Char} {s : Str} (h : Collapsed (c :: s)) : Collapsed s := by
  obtain ⟨h1, h2, h3, h4, h5, h6⟩ := h
  exact ⟨fun h => h1 (List.mem_cons_of_mem _ h), fun h => h2 (List.mem_cons_of_mem _ h), h3.2, h4.2, h5.2, h6.2⟩

theorem collapsed_blank {c d : Char} {s : Str} (h : Collapsed (c :: d :: s)) (hc : isBlankChar c = true) :
    isBlankChar d = false := by
  obtain ⟨h1, h2, h3, h4, h5, h6⟩ := h
  have h3 := h3.1
  have h4 := h4.1
  have h5 := h5.1
  have h6 := h6.1
  simp at h1 h2 h3 h4 h5 h6
  cases hd : isBlankChar d with
  | false => rfl
  | true =>
    rw [isBlankChar_iff] at hc hd
    rcases hc with rfl | rfl | rfl | rfl <;> rcases hd with rfl | rfl | rfl | rfl <;>
      simp_all

theorem collapseFrom_collapsed (s : Str) (h : Collapsed s) : collapseFrom none s = s := by
  have key : ∀ n, ∀ s : Str, s.length = n → Collapsed s → collapseFrom none s = s := by
    intro n
    induction n using Nat.strongRecOn with
    | _ n ih =>
      intro s hn h
      cases s with
      | nil => rfl
      | cons c s =>
        cases hc : isBlankChar c with
        | false =>
          simp only [collapseFrom, hc, Bool.false_eq_true, if_false, runText, List.nil_append]
          rw [ih s.length (by simp at hn; omega) s rfl (collapsed_tail h)]
        | true =>
          have hrun : runText (some (isBreak c)) = [c] := by
            have h1 := h.1
            have h2 := h.2.1
            simp at h1 h2
            rcases (isBlankChar_iff c).mp hc with rfl | rfl | rfl | rfl
            · rfl
            · exact absurd rfl h2.1
            · rfl
            · exact absurd rfl h1.1
          cases s with
          | nil => simp [collapseFrom, hc, hrun]
          | cons d s =>
            have hd := collapsed_blank h hc
            simp only [collapseFrom, hc, hd, if_true, Bool.false_eq_true, if_false, Option.getD_none, Bool.false_or, hrun]
            rw [ih s.length (by simp at hn; omega) s rfl (collapsed_tail (collapsed_tail h))]
            rfl
  exact key s.length s rfl h

theorem mem_strReplace2 {a b c z : Char} {s : Str} (h : z ∈ strReplace [a, b] [c] s) : z ∈ s ∨ z = c := by
  induction s using pairInd a b with
  | nil => exact absurd h (by simp [strReplace, strReplaceGo])
  | hit s ih =>
    rw [strReplace_hit2] at h
    rcases List.mem_cons.mp h with h | h
    · exact .inr h
    · rcases ih h with h | h
      · exact .inl (List.mem_cons_of_mem _ (List.mem_cons_of_mem _ h))
      · exact .inr h
  | miss x s hm ih =>
    rw [strReplace_miss2 _ _ _ _ _ hm] at h
    rcases List.mem_cons.mp h with h | h
    · exact .inl (h ▸ List.mem_cons_self)
    · rcases ih h with h | h
      · exact .inl (List.mem_cons_of_mem _ h)
      · exact .inr h

theorem not_mem_replaceRecursive2 (a b c z : Char) (hz : z ≠ c) (s : Str) (h : z ∉ s) :
    z ∉ replaceRecursive [a, b] [c] s := by
  refine replaceRecursive_inv _ _ (fun s => z ∉ s) (fun s h hm => ?_) s h
  rcases mem_strReplace2 hm with h' | h'
  · exact h h'
  · exact hz h'

theorem noPair_replaceRecursive_keep (a b c x y : Char) (s : Str) (hy : y = c → a = c) (hx : x = c → b = c)
    (h : NoPair x y s) : NoPair x y (replaceRecursive [a, b] [c] s) :=
  replaceRecursive_inv _ _ (NoPair x y) (fun s h => noPair_strReplace a b c x y s hy hx h) s h

theorem noPair_map (x y : Char) (f : Char → Char) (hx : ∀ z, f z = x → z = x) (hy : ∀ z, f z = y → z = y)
    (s : Str) (h : NoPair x y s) : NoPair x y (s.map f) := by
  induction s with
  | nil => exact trivial
  | cons z s ih =>
    refine ⟨?_, ih h.2⟩
    rintro ⟨h1, h2⟩
    refine h.1 ⟨hx z h1, ?_⟩
    cases s with
    | nil => simp at h2
    | cons w s => simp at h2; simp [hy w h2]

theorem stripWhitespace_eq (s : Str) : stripWhitespace s =
    replaceRecursive ['\n', '\n'] ['\n'] (replaceRecursive ['\n', ' '] ['\n'] (replaceRecursive [' ', '\n'] ['\n']
      (replaceRecursive ['\r'] ['\n'] (replaceRecursive [' ', ' '] [' '] (replaceRecursive ['\t'] [' '] s))))) := rfl

theorem collapsed_stripWhitespace (s : Str) : Collapsed (stripWhitespace s) := by
  rw [stripWhitespace_eq]
  rw [replaceRecursive_one '\t' ' ' (by decide)]
  generalize hs1 : s.map (fun x => if x = '\t' then ' ' else x) = s1
  have h1 : '\t' ∉ s1 := by
    rw [← hs1]
    intro h
    obtain ⟨x, _, hx⟩ := List.mem_map.mp h
    by_cases hxt : x = '\t'
    · rw [if_pos hxt] at hx; revert hx; decide
    · rw [if_neg hxt] at hx; exact hxt hx
  generalize hs2 : replaceRecursive [' ', ' '] [' '] s1 = s2
  have h2 : '\t' ∉ s2 ∧ NoPair ' ' ' ' s2 := by
    rw [← hs2]
    exact ⟨not_mem_replaceRecursive2 _ _ _ _ (by decide) _ h1, noPair_replaceRecursive _ _ _ _⟩
  rw [replaceRecursive_one '\r' '\n' (by decide)]
  generalize hs3 : s2.map (fun x => if x = '\r' then '\n' else x) = s3
  have h3 : '\t' ∉ s3 ∧ '\r' ∉ s3 ∧ NoPair ' ' ' ' s3 := by
    rw [← hs3]
    refine ⟨?_, ?_, ?_⟩
    · intro h
      obtain ⟨x, hxs, hx⟩ := List.mem_map.mp h
      by_cases hxt : x = '\r'
      · rw [if_pos hxt] at hx; revert hx; decide
      · rw [if_neg hxt] at hx; exact h2.1 (hx ▸ hxs)
    · intro h
      obtain ⟨x, hxs, hx⟩ := List.mem_map.mp h
      by_cases hxt : x = '\r'
      · rw [if_pos hxt] at hx; revert hx; decide
      · rw [if_neg hxt] at hx; exact hxt hx
    · have : ∀ z, (if z = '\r' then '\n' else z) = ' ' → z = ' ' := by
        intro z hz
        by_cases hzr : z = '\r'
        · rw [if_pos hzr] at hz; exact absurd hz (by decide)
        · rw [if_neg hzr] at hz; exact hz
      exact noPair_map _ _ _ this this _ h2.2
  generalize hs4 : replaceRecursive [' ', '\n'] ['\n'] s3 = s4
  have h4 : '\t' ∉ s4 ∧ '\r' ∉ s4 ∧ NoPair ' ' ' ' s4 ∧ NoPair ' ' '\n' s4 := by
    rw [← hs4]
    exact ⟨not_mem_replaceRecursive2 _ _ _ _ (by decide) _ h3.1, not_mem_replaceRecursive2 _ _ _ _ (by decide) _ h3.2.1,
      noPair_replaceRecursive_keep _ _ _ _ _ _ (by decide) (by decide) h3.2.2, noPair_replaceRecursive _ _ _ _⟩
  generalize hs5 : replaceRecursive ['\n', ' '] ['\n'] s4 = s5
  have h5 : '\t' ∉ s5 ∧ '\r' ∉ s5 ∧ NoPair ' ' ' ' s5 ∧ NoPair ' ' '\n' s5 ∧ NoPair '\n' ' ' s5 := by
    rw [← hs5]
    exact ⟨not_mem_replaceRecursive2 _ _ _ _ (by decide) _ h4.1, not_mem_replaceRecursive2 _ _ _ _ (by decide) _ h4.2.1,
      noPair_replaceRecursive_keep _ _ _ _ _ _ (by decide) (by decide) h4.2.2.1,
      noPair_replaceRecursive_keep _ _ _ _ _ _ (by decide) (by decide) h4.2.2.2, noPair_replaceRecursive _ _ _ _⟩
  exact ⟨not_mem_replaceRecursive2 _ _ _ _ (by decide) _ h5.1, not_mem_replaceRecursive2 _ _ _ _ (by decide) _ h5.2.1,
    noPair_replaceRecursive_keep _ _ _ _ _ _ (by decide) (by decide) h5.2.2.1,
    noPair_replaceRecursive_keep _ _ _ _ _ _ (by decide) (by decide) h5.2.2.2.1,
    noPair_replaceRecursive_keep _ _ _ _ _ _ (by decide) (by decide) h5.2.2.2.2, noPair_replaceRecursive _ _ _ _⟩

theorem collapseFrom_replaceRecursive2 (a b c : Char) (ha : isBlankChar a = true) (hb : isBlankChar b = true)
    (hc : isBlankChar c = true) (hk : (isBreak a || isBreak b) = isBreak c) (s : Str) :
    collapseFrom none (replaceRecursive [a, b] [c] s) = collapseFrom none s :=
  replaceRecursive_inv _ _ (fun r => collapseFrom none r = collapseFrom none s)
    (fun r h => by rw [collapseFrom_strReplace a b c ha hb hc hk]; exact h) s rfl

theorem stripWhitespace_collapse (s : Str) : stripWhitespace s = collapseWhitespace s := by
  rw [← collapseFrom_collapsed _ (collapsed_stripWhitespace s)]
  rw [stripWhitespace_eq]
  rw [collapseFrom_replaceRecursive2 _ _ _ (by decide) (by decide) (by decide) (by decide),
    collapseFrom_replaceRecursive2 _ _ _ (by decide) (by decide) (by decide) (by decide),
    collapseFrom_replaceRecursive2 _ _ _ (by decide) (by decide) (by decide) (by decide)]
  rw [replaceRecursive_one '\r' '\n' (by decide)]
  rw [collapseFrom_map]
  · rw [collapseFrom_replaceRecursive2 _ _ _ (by decide) (by decide) (by decide) (by decide)]
    rw [replaceRecursive_one '\t' ' ' (by decide)]
    rw [collapseFrom_map]
    · rfl
    · intro c; by_cases h : c = '\t'
      · subst h; rfl
      · rw [if_neg h]
    · intro c; by_cases h : c = '\t'
      · subst h; rfl
      · rw [if_neg h]
    · intro c hc; by_cases h : c = '\t'
      · subst h; exact absurd hc (by decide)
      · rw [if_neg h]
  · intro c; by_cases h : c = '\r'
    · subst h; rfl
    · rw [if_neg h]
  · intro c; by_cases h : c = '\r'
    · subst h; rfl
    · rw [if_neg h]
  · intro c hc; by_cases h : c = '\r'
    · subst h; exact absurd hc (by decide)
    · rw [if_neg h]

end Verif
