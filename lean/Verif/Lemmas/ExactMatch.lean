/-
Lemmas about the search for a text which occurs literally.
-/
import Verif.Spec.ExactMatch
import Verif.Props.FuzzySearch

namespace Verif
open Spec

theorem filter_zero_blocks (zs : List Block) (hz : ∀ z ∈ zs, z.size = 0) : zs.filter (fun x => x.size ≠ 0) = [] := by
  rw [List.filter_eq_nil_iff]
  intro z h
  simp [hz z h]

theorem sum_zero_blocks (zs : List Block) (hz : ∀ z ∈ zs, z.size = 0) : (zs.map Block.size).sum = 0 := by
  induction zs with
  | nil => rfl
  | cons z zs ih =>
    rw [List.map_cons, List.sum_cons, hz z List.mem_cons_self, ih (fun z h => hz z (List.mem_cons_of_mem _ h))]

/-- A single block for all of the second text scores 1. -/
theorem exact_score (a b : Str) (q : Nat) (zs : List Block) (j : IsJunk) (hb : b ≠ []) (hz : ∀ z ∈ zs, z.size = 0) :
    FuzzyResult.bGapRatioFixed ⟨a, b, ⟨q, 0, b.length⟩ :: zs, j⟩ = 1 := by
  have hl : b.length ≠ 0 := by simpa using hb
  have hne : FuzzyResult.nonEmpty ⟨a, b, ⟨q, 0, b.length⟩ :: zs, j⟩ = [⟨q, 0, b.length⟩] := by
    unfold FuzzyResult.nonEmpty
    simp only []
    rw [List.filter_cons_of_pos (by simpa using hb), filter_zero_blocks zs hz]
  have hm : FuzzyResult.matchCount ⟨a, b, ⟨q, 0, b.length⟩ :: zs, j⟩ = b.length := by
    unfold FuzzyResult.matchCount
    simp only [List.map_cons, List.sum_cons, sum_zero_blocks zs hz]
    omega
  have hr : FuzzyResult.aRange ⟨a, b, ⟨q, 0, b.length⟩ :: zs, j⟩ = (q, q + b.length) := by
    unfold FuzzyResult.aRange
    rw [hne]
    rfl
  have inv (s n : Nat) (hn : n ≠ 0) : invertRanges (s + n) s [(s, s + n)] = [] := by
    unfold invertRanges
    rw [if_neg (by omega), if_neg (by omega)]
    unfold invertRanges
    rw [if_neg (by omega)]
  have ha : FuzzyResult.aNonMatchingJunk ⟨a, b, ⟨q, 0, b.length⟩ :: zs, j⟩ (some (q, q + b.length)) = 0 := by
    unfold FuzzyResult.aNonMatchingJunk FuzzyResult.countNonMatchingJunk FuzzyResult.aBlocks
    rw [hne]
    simp only [Option.getD_some, List.map_cons, List.map_nil]
    rw [inv _ _ hl]; rfl
  have hbj : FuzzyResult.bNonMatchingJunk ⟨a, b, ⟨q, 0, b.length⟩ :: zs, j⟩ = 0 := by
    unfold FuzzyResult.bNonMatchingJunk FuzzyResult.countNonMatchingJunk FuzzyResult.bBlocks
    rw [hne]
    simp only [Option.getD_none, List.map_cons, List.map_nil]
    have := inv 0 b.length hl
    rw [Nat.zero_add] at this ⊢
    rw [this]; rfl
  unfold FuzzyResult.bGapRatioFixed FuzzyResult.ratioTo
  simp only [hr, hm, ha, hbj]
  have e : ((b.length : Int) + max 0 (((q + b.length - q : Nat) : Int) - b.length) - (0 : Nat) - (0 : Nat)) = b.length := by
    have : q + b.length - q = b.length := by omega
    rw [this]
    omega
  rw [e, if_neg (by omega)]
  have h0 : (b.length : Rat) ≠ 0 := by
    intro h
    exact hl (by exact_mod_cast h)
  rw [show (((b.length : Int) : Rat)) = (b.length : Rat) from rfl]
  rw [Rat.div_def]
  exact Rat.mul_inv_cancel _ h0

theorem take_drop_length {α : Type} {a b : List α} {p : Nat} (h : (a.drop p).take b.length = b) (hb : b ≠ []) :
    p + b.length ≤ a.length := by
  have := congrArg List.length h
  rw [List.length_take, List.length_drop] at this
  have : b.length ≠ 0 := by simpa using hb
  omega

theorem infix_of_take_drop {α : Type} {a b : List α} {p : Nat} (h : (a.drop p).take b.length = b) : b <:+: a := by
  refine ⟨a.take p, (a.drop p).drop b.length, ?_⟩
  conv => lhs; rw [← h]
  rw [List.append_assoc, h]
  conv => lhs; arg 2; arg 1; rw [← h]
  rw [List.take_append_drop, List.take_append_drop]

theorem take_drop_of_infix {α : Type} {a b : List α} (h : b <:+: a) : ∃ p, (a.drop p).take b.length = b := by
  obtain ⟨l, r, rfl⟩ := h
  refine ⟨l.length, ?_⟩
  rw [List.append_assoc, List.drop_left, List.take_left]

theorem exists_last (P : Nat → Prop) (n : Nat) (hb : ∀ p, P p → p ≤ n) (hp : ∃ p, P p) : ∃ p, P p ∧ ∀ q, P q → q ≤ p := by
  induction n with
  | zero => obtain ⟨p, hp⟩ := hp; exact ⟨p, hp, fun q hq => by have := hb q hq; omega⟩
  | succ n ih =>
    by_cases h : P (n + 1)
    · exact ⟨n + 1, h, fun q hq => hb q hq⟩
    · refine ih ?_
      intro p hp
      have := hb p hp
      have : p ≠ n + 1 := fun e => h (e ▸ hp)
      omega

theorem slice_slice (s : Str) (i n j m : Nat) (h : j + m ≤ n) : slice (slice s i n) j m = slice s (i + j) m := by
  unfold slice
  rw [List.drop_take, List.drop_drop, List.take_take]
  congr 1
  omega

/-- A text which occurs is found by the search in windows. -/
theorem autoStrided_exact (env : SearchEnv) (hl : FindsLiteral env.lsm) (ht : env.threshold ≤ 1)
    (hr : ∀ q, 0 ≤ q → 0 ≤ env.rnd q) (haystack needle : Str) (hne : needle ≠ []) (ho : needle <:+: haystack) :
    ∃ c cs, autoStridedSearch env haystack needle = some (c :: cs) := by
  obtain ⟨r, hres⟩ := (Props.C38_default_terminates env haystack needle).2
  cases r with
  | cons c cs => exact ⟨c, cs, hres⟩
  | nil =>
    exfalso
    obtain ⟨p, hp, hlast⟩ := exists_last (fun p => (haystack.drop p).take needle.length = needle) haystack.length
      (fun p hp => by have := take_drop_length hp hne; omega) (take_drop_of_infix ho)
    have hpl := take_drop_length hp hne
    have hn0 : needle.length ≠ 0 := by simpa using hne
    obtain ⟨k, hk1, hk2, hk3, hk4⟩ := Props.C38_coverage env.rnd haystack.length needle.length env.threshold p
      needle.length hpl (by omega) (.inl (by
        have := hr ((min haystack.length needle.length : Nat) * (1 - env.threshold))
          (Rat.mul_nonneg (by exact_mod_cast Nat.zero_le _) (by
            have := (Rat.le_iff_sub_nonneg env.threshold 1).1 ht
            exact this))
        omega))
    unfold autoStridedSearch at hres
    simp only [] at hres
    have h := stridedSearch_nothing _ haystack _ env.maxChunks needle 0 hres
    · refine h k (by rw [Nat.zero_add]; exact hk1) ?_
      rw [Nat.zero_add]
      generalize hs : (defaultMaxLengthAndStride env.rnd haystack.length needle.length env.threshold).2.toNat = stride at *
      generalize hml : (defaultMaxLengthAndStride env.rnd haystack.length needle.length env.threshold).1.toNat = maxLength at *
      unfold Accepted window
      simp only []
      have hin : needle <:+: slice haystack (k * stride) maxLength := by
        apply infix_of_take_drop (p := p - k * stride)
        have := slice_slice haystack (k * stride) maxLength (p - k * stride) needle.length (by omega)
        unfold slice at this ⊢
        rw [this]
        rw [show k * stride + (p - k * stride) = p by omega]
        exact hp
      obtain ⟨q, zs, e, hz, hq⟩ := hl _ _ hne hin
      have hq2 := take_drop_length hq hne
      have hwl : (slice haystack (k * stride) maxLength).length ≤ maxLength := by
        unfold slice; rw [List.length_take]; omega
      have hq3 := hlast (k * stride + q) (by
        have := slice_slice haystack (k * stride) maxLength q needle.length (by omega)
        unfold slice at this hq
        rw [← this]
        exact hq)
      refine ⟨_, _, e, by simp only []; omega, by simp only []; omega, ?_⟩
      rw [exact_score _ _ _ _ _ hne hz]
      exact ht

/-! ### Words -/

theorem splitLoop_sep (sep : List Char) (prev : Nat) (cur : Str) (c : Char) (hc : c ∈ sep) (s : Str) :
    splitWithOffsetLoop sep prev cur (c :: s) = (if cur.isEmpty then [] else [(prev, cur)]) ++
      (prev + cur.length, [c]) :: splitWithOffsetLoop sep (prev + cur.length + 1) [] s := by
  rw [splitWithOffsetLoop, if_pos (by simpa using hc)]

theorem splitLoop_char (sep : List Char) (prev : Nat) (cur : Str) (c : Char) (hc : c ∉ sep) (s : Str) :
    splitWithOffsetLoop sep prev cur (c :: s) = splitWithOffsetLoop sep prev (cur ++ [c]) s := by
  rw [splitWithOffsetLoop, if_neg (by simpa using hc)]

theorem splitLoop_shift (sep : List Char) (s : Str) (p q : Nat) (cur : Str) :
    (splitWithOffsetLoop sep p cur s).map Prod.snd = (splitWithOffsetLoop sep q cur s).map Prod.snd := by
  induction s generalizing p q cur with
  | nil => unfold splitWithOffsetLoop; split <;> rfl
  | cons x s ih =>
    by_cases hx : x ∈ sep
    · rw [splitLoop_sep _ _ _ _ hx, splitLoop_sep _ _ _ _ hx, List.map_append, List.map_append, List.map_cons,
        List.map_cons, ih _ (q + cur.length + 1) []]
      split <;> rfl
    · rw [splitLoop_char _ _ _ _ hx, splitLoop_char _ _ _ _ hx]
      exact ih _ _ _

theorem splitLoop_append_sep (sep : List Char) (prev : Nat) (cur l : Str) (c : Char) (hc : c ∈ sep) (s : Str) :
    (splitWithOffsetLoop sep prev cur (l ++ c :: s)).map Prod.snd =
      (splitWithOffsetLoop sep prev cur (l ++ [c])).map Prod.snd ++ (splitWithOffsetLoop sep 0 [] s).map Prod.snd := by
  induction l generalizing prev cur with
  | nil =>
    rw [List.nil_append, List.nil_append, splitLoop_sep _ _ _ _ hc, splitLoop_sep _ _ _ _ hc]
    rw [List.map_append, List.map_append, List.append_assoc, List.map_cons, List.map_cons]
    congr 1
    rw [List.cons_append]
    congr 1
    rw [splitLoop_shift sep s _ 0 []]
    rfl
  | cons x l ih =>
    rw [List.cons_append, List.cons_append]
    by_cases hx : x ∈ sep
    · rw [splitLoop_sep _ _ _ _ hx, splitLoop_sep _ _ _ _ hx]
      rw [List.map_append, List.map_append, List.map_cons, List.map_cons, ih, List.append_assoc, List.cons_append]
    · rw [splitLoop_char _ _ _ _ hx, splitLoop_char _ _ _ _ hx]
      exact ih _ _

/-- The words of a text. -/
def wordsOf (sep : List Char) (s : Str) : List Str := (splitWithOffset sep s).map Prod.snd

theorem splitLoop_sep_end (sep : List Char) (prev : Nat) (cur s : Str) (c : Char) (hc : c ∈ sep) :
    (splitWithOffsetLoop sep prev cur (s ++ [c])).map Prod.snd =
      (splitWithOffsetLoop sep prev cur s).map Prod.snd ++ [[c]] := by
  induction s generalizing prev cur with
  | nil =>
    rw [List.nil_append, splitLoop_sep _ _ _ _ hc, List.map_append, List.map_cons]
    rfl
  | cons x s ih =>
    rw [List.cons_append]
    by_cases hx : x ∈ sep
    · rw [splitLoop_sep _ _ _ _ hx, splitLoop_sep _ _ _ _ hx]
      rw [List.map_append, List.map_append, List.map_cons, List.map_cons, ih, List.append_assoc, List.cons_append]
    · rw [splitLoop_char _ _ _ _ hx, splitLoop_char _ _ _ _ hx]
      exact ih _ _

theorem words_infix (sep : List Char) (w s : Str) (h : WordIn sep w s) : wordsOf sep w <:+: wordsOf sep s := by
  obtain ⟨l, r, rfl, hl, hr⟩ := h
  have h1 : ∃ ws, wordsOf sep (l ++ (w ++ r)) = ws ++ wordsOf sep (w ++ r) := by
    rcases hl with rfl | ⟨l', c, rfl, hc⟩
    · exact ⟨[], rfl⟩
    · rw [List.append_assoc]
      exact ⟨_, splitLoop_append_sep sep 0 [] l' c hc (w ++ r)⟩
  have h2 : ∃ ws, wordsOf sep (w ++ r) = wordsOf sep w ++ ws := by
    rcases hr with rfl | ⟨c, r', rfl, hc⟩
    · exact ⟨[], by simp⟩
    · have := splitLoop_append_sep sep 0 [] w c hc r'
      rw [splitLoop_sep_end sep 0 [] w c hc, List.append_assoc] at this
      exact ⟨_, this⟩
  obtain ⟨a, ha⟩ := h1
  obtain ⟨b, hb⟩ := h2
  rw [List.append_assoc, ha, hb]
  exact ⟨a, b, by rw [List.append_assoc]⟩

theorem wordsOf_ne_nil (sep : List Char) (s : Str) (h : s ≠ []) : wordsOf sep s ≠ [] := by
  intro e
  have := (Props.C62_words sep s).1
  unfold wordsOf at e
  rw [e] at this
  exact h this.symm

/-- A text of words which occur is matched completely. -/
theorem wordBlocks_exact (diff : List Str → List Str → List Block)
    (hd : ∀ a b, Consistent a b (diff a b) ∧ Aligned a b (diff a b)) (hl : FindsLiteral diff) (a b : Str) (hb : b ≠ [])
    (hw : wordsOf wordSeparators b <:+: wordsOf wordSeparators a) :
    ∃ q, wordBlocks diff a b = .ok [⟨q, 0, b.length⟩] := by
  obtain ⟨q, zs, e, hz, hq⟩ := hl _ _ (wordsOf_ne_nil _ b hb) hw
  have hcons := hd (wordsOf wordSeparators a) (wordsOf wordSeparators b)
  have := wordBlocks_ok diff a b hcons.1
  rw [this]
  have hlen : (wordsOf wordSeparators b).length ≠ 0 := by simpa using wordsOf_ne_nil wordSeparators b hb
  change ∃ q', Except.ok (((diff (wordsOf wordSeparators a) (wordsOf wordSeparators b)).filter
    (fun x => x.size ≠ 0)).map _) = _
  rw [e, List.filter_cons_of_pos (by simpa using wordsOf_ne_nil wordSeparators b hb), filter_zero_blocks zs hz]
  refine ⟨wordStart (splitWithOffset wordSeparators a) q, ?_⟩
  have hal := charBlock_aligned (splitWithOffset wordSeparators a) (splitWithOffset wordSeparators b) a b
    (Props.C62_words _ a).1 (Props.C62_words _ b).1 ⟨q, 0, (wordsOf wordSeparators b).length⟩
    (hcons.2 _ (by rw [e]; exact List.mem_cons_self))
  have h2 : (charBlock (splitWithOffset wordSeparators a) (splitWithOffset wordSeparators b)
      ⟨q, 0, (wordsOf wordSeparators b).length⟩).size = b.length := by
    rw [hal.1]
    simp only [Nat.zero_add]
    unfold wordStart wordsOf
    rw [List.length_map, List.take_length, List.take_zero]
    rw [← length_flatten_words, (Props.C62_words wordSeparators b).1]
    simp
  rw [List.map_cons, List.map_nil]
  congr 2
  unfold charBlock at h2 ⊢
  simp only [] at h2 ⊢
  rw [h2]
  simp [wordStart]

end Verif
