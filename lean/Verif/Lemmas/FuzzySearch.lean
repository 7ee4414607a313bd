import Verif.Lemmas.Fuzzy
import Verif.Spec.FuzzySearch

namespace Verif
open Spec

/-! ## Views -/

theorem view_eq (s : Str) (f : Nat → Bool) (n : Nat) :
    ((s.zip ((List.range' n s.length).map f)).filter (fun p => p.2)).map Prod.fst =
      ((s.zipIdx n).filter (fun c => f c.2)).map Prod.fst := by
  induction s generalizing n with
  | nil => rfl
  | cons c s ih =>
    rw [List.length_cons, List.range'_succ, List.map_cons, List.zip_cons_cons, List.zipIdx_cons,
      List.filter_cons, List.filter_cons]
    split
    · rw [List.map_cons, List.map_cons, ih]
    · rw [ih]

theorem indexAt_eq (s : Str) (f : Nat → Bool) (n : Nat) :
    ((((List.range' n s.length).map f).zipIdx n).filter (fun p => p.1)).map Prod.snd =
      ((s.zipIdx n).filter (fun c => f c.2)).map Prod.snd := by
  induction s generalizing n with
  | nil => rfl
  | cons c s ih =>
    rw [List.length_cons, List.range'_succ, List.map_cons, List.zipIdx_cons, List.zipIdx_cons,
      List.filter_cons, List.filter_cons]
    split
    · rw [List.map_cons, List.map_cons, ih]
    · rw [ih]

/-- The positions kept by a view, with their characters. -/
def keptAt (isJunk : IsJunk) (s : Str) : List (Char × Nat) := s.zipIdx.filter (fun c => !isJunk s c.2)

theorem noJunkView_view (isJunk : IsJunk) (s : Str) :
    (noJunkView isJunk s).view = (keptAt isJunk s).map Prod.fst := by
  unfold noJunkView StringView.ofInView keptAt
  rw [List.range_eq_range']
  exact view_eq s (fun i => !isJunk s i) 0

theorem noJunkView_index (isJunk : IsJunk) (s : Str) :
    (noJunkView isJunk s).originalIndexAt = (keptAt isJunk s).map Prod.snd := by
  unfold noJunkView StringView.ofInView keptAt
  rw [List.range_eq_range']
  exact indexAt_eq s (fun i => !isJunk s i) 0

theorem zipIdx_pairwise (s : Str) (n : Nat) : (s.zipIdx n).Pairwise (fun p q => p.2 < q.2) := by
  induction s generalizing n with
  | nil => exact List.Pairwise.nil
  | cons c s ih =>
    rw [List.zipIdx_cons, List.pairwise_cons]
    refine ⟨?_, ih (n + 1)⟩
    intro q hq
    have := List.le_snd_of_mem_zipIdx hq
    simp only
    omega

theorem keptAt_pairwise (isJunk : IsJunk) (s : Str) : (keptAt isJunk s).Pairwise (fun p q => p.2 < q.2) :=
  (zipIdx_pairwise s 0).sublist List.filter_sublist

theorem mem_keptAt (isJunk : IsJunk) (s : Str) (c : Char) (k : Nat) :
    (c, k) ∈ keptAt isJunk s ↔ s[k]? = some c ∧ isJunk s k = false := by
  unfold keptAt
  rw [List.mem_filter, List.mk_mem_zipIdx_iff_getElem?]
  simp

/-- The characters kept by a test of the characters, with their positions. -/
def keptChars (p : Char → Bool) (s : Str) (n : Nat) : List (Char × Nat) := (s.zipIdx n).filter (fun c => p c.1)

theorem keptChars_fst (p : Char → Bool) (s : Str) (n : Nat) : (keptChars p s n).map Prod.fst = s.filter p := by
  unfold keptChars
  induction s generalizing n with
  | nil => rfl
  | cons c s ih =>
    rw [List.zipIdx_cons, List.filter_cons, List.filter_cons]
    split
    · rw [List.map_cons, ih]
    · rw [ih]

/-- The characters before the `i`-th character kept are the first `i` characters kept. -/
theorem keptChars_take (p : Char → Bool) (s : Str) (n i : Nat) (c : Char) (k : Nat)
    (h : (keptChars p s n)[i]? = some (c, k)) :
    n ≤ k ∧ (s.take (k - n)).filter p = (s.filter p).take i ∧
    (s.take (k - n + 1)).filter p = (s.filter p).take (i + 1) := by
  unfold keptChars at h
  induction s generalizing n i with
  | nil => simp at h
  | cons d s ih =>
    rw [List.zipIdx_cons, List.filter_cons] at h
    split at h
    · next hp =>
      cases i with
      | zero =>
        simp only [List.getElem?_cons_zero, Option.some.injEq, Prod.mk.injEq] at h
        obtain ⟨rfl, rfl⟩ := h
        refine ⟨Nat.le_refl _, by simp, ?_⟩
        simp only at hp
        simp [hp]
      | succ i =>
        rw [List.getElem?_cons_succ] at h
        obtain ⟨h1, h2, h3⟩ := ih (n + 1) i h
        simp only at hp
        have e : k - n = (k - (n + 1)) + 1 := by omega
        refine ⟨by omega, ?_, ?_⟩
        · rw [e, List.take_succ_cons, List.filter_cons, if_pos hp, List.filter_cons, if_pos hp,
            List.take_succ_cons, h2]
        · rw [e, List.take_succ_cons, List.filter_cons, if_pos hp, List.filter_cons, if_pos hp,
            List.take_succ_cons, h3]
    · next hp =>
      obtain ⟨h1, h2, h3⟩ := ih (n + 1) i h
      simp only at hp
      have e : k - n = (k - (n + 1)) + 1 := by omega
      refine ⟨by omega, ?_, ?_⟩
      · rw [e, List.take_succ_cons, List.filter_cons, if_neg hp, List.filter_cons, if_neg hp, h2]
      · rw [e, List.take_succ_cons, List.filter_cons, if_neg hp, List.filter_cons, if_neg hp, h3]

theorem keptAt_space (s : Str) :
    keptAt spaceIsJunk s = keptChars (fun c => !(c == ' ' || c == '\t' || c == '\n')) s 0 := by
  unfold keptAt keptChars
  apply List.filter_congr
  intro c hc
  obtain ⟨c, k⟩ := c
  rw [List.mk_mem_zipIdx_iff_getElem?] at hc
  simp only [spaceIsJunk]
  rw [hc]
  rfl

theorem view_space (s : Str) : (noJunkView spaceIsJunk s).view = noSpace s := by
  rw [noJunkView_view, keptAt_space, keptChars_fst]; rfl

theorem slice_split (s : Str) (i j : Nat) (h : i ≤ j) : s.take j = s.take i ++ slice s i (j - i) := by
  unfold slice
  rw [← List.take_add]
  congr 1; omega

/-- The characters of the original text between two positions of the view. -/
theorem noSpace_slice (s : Str) (i n a last : Nat)
    (ha : (noJunkView spaceIsJunk s).originalIndexAt[i]? = some a)
    (hl : (noJunkView spaceIsJunk s).originalIndexAt[i + n]? = some last) :
    a ≤ last ∧ noSpace (slice s a (last - a + 1)) = slice (noSpace s) i (n + 1) := by
  have hp := keptAt_pairwise spaceIsJunk s
  rw [noJunkView_index] at ha hl
  rw [List.getElem?_map, Option.map_eq_some_iff] at ha hl
  obtain ⟨⟨c, k⟩, ha, hk⟩ := ha
  obtain ⟨⟨d, k'⟩, hl, hk'⟩ := hl
  simp only at hk hk'
  subst hk hk'
  have hle : k ≤ k' := by
    rcases Nat.eq_zero_or_pos n with hn | hn
    · subst hn
      rw [Nat.add_zero, ha] at hl
      cases hl; exact Nat.le_refl _
    · rw [List.pairwise_iff_getElem] at hp
      obtain ⟨h1, e1⟩ := List.getElem?_eq_some_iff.1 ha
      obtain ⟨h2, e2⟩ := List.getElem?_eq_some_iff.1 hl
      have := hp i (i + n) h1 h2 (by omega)
      rw [e1, e2] at this
      exact Nat.le_of_lt this
  refine ⟨hle, ?_⟩
  rw [keptAt_space] at ha hl
  obtain ⟨_, ha2, _⟩ := keptChars_take _ s 0 i c k ha
  obtain ⟨_, _, hl3⟩ := keptChars_take _ s 0 (i + n) d k' hl
  rw [Nat.sub_zero] at ha2 hl3
  rw [slice_split s k (k' + 1) (by omega), List.filter_append, ha2, slice_split _ i (i + n + 1) (by omega)] at hl3
  have := List.append_cancel_left hl3
  have e1 : k' + 1 - k = k' - k + 1 := by omega
  have e2 : i + n + 1 - i = n + 1 := by omega
  rw [e1, e2] at this
  exact this

/-- Equal characters at all positions of a block: equal slices. -/
theorem slice_of_aligned (a b : Str) (x : Block)
    (h : ∀ k, k < x.size → ∃ c, a[x.a + k]? = some c ∧ b[x.b + k]? = some c) :
    slice a x.a x.size = slice b x.b x.size := by
  unfold slice
  apply List.ext_getElem?
  intro k
  rw [List.getElem?_take, List.getElem?_take]
  split
  · next hk =>
    obtain ⟨c, h1, h2⟩ := h k hk
    rw [List.getElem?_drop, List.getElem?_drop, h1, h2]
  · rfl

/-! ## Strided search -/

/-- The chunk search for the rest of the needle. -/
def chunkStep (env : StridedEnv) (haystack : Str) (rec : Int → Str → Nat → Option (List (List Block)))
    (maxChunks : Int) (needle : Str) (start : Nat) (bs : List Block) : Option (List (List Block)) :=
  if !(firstChunk env haystack needle bs (bs.length - 1)).isEmpty then
    match rec (maxChunks - 1) (needle.drop (blocksEnd (firstChunk env haystack needle bs (bs.length - 1))))
      (start + blocksEnd (firstChunk env haystack needle bs (bs.length - 1))) with
    | none => none
    | some [] => rec maxChunks needle (start + env.stride)
    | some (r :: rs) => some (firstChunk env haystack needle bs (bs.length - 1) ::
        (r :: rs).map (offsetBlocks 0 (blocksEnd (firstChunk env haystack needle bs (bs.length - 1)))))
  else if !(lastChunk env haystack needle bs).isEmpty then
    match rec (maxChunks - 1) (needle.take ((blocksStart (lastChunk env haystack needle bs)).getD 0)) 0 with
    | none => none
    | some [] => rec maxChunks needle (start + env.stride)
    | some (r :: rs) => some ((r :: rs) ++ [lastChunk env haystack needle bs])
  else rec maxChunks needle (start + env.stride)

/-- One round of the search: the end, the next window, the rest of the needle, or an accepted window. -/
theorem stridedSearch_cases (env : StridedEnv) (haystack : Str) (fuel : Nat) (maxChunks : Int) (needle : Str)
    (start : Nat) :
    (haystack.length ≤ start ∧ stridedSearch env haystack (fuel + 1) maxChunks needle start = some []) ∨
    (start < haystack.length ∧ ¬ Accepted env haystack needle start ∧
      stridedSearch env haystack (fuel + 1) maxChunks needle start =
        stridedSearch env haystack fuel maxChunks needle (start + env.stride)) ∨
    (start < haystack.length ∧ ¬ Accepted env haystack needle start ∧ 1 < maxChunks ∧
      (∃ x bs, env.lsm (window env haystack start) needle = x :: bs) ∧
      stridedSearch env haystack (fuel + 1) maxChunks needle start =
        chunkStep env haystack (stridedSearch env haystack fuel) maxChunks needle start
          (env.lsm (window env haystack start) needle)) ∨
    (start < haystack.length ∧ Accepted env haystack needle start ∧
      stridedSearch env haystack (fuel + 1) maxChunks needle start =
        some [moved start (env.lsm (window env haystack start) needle)]) := by
  by_cases h : start < haystack.length
  · right
    have hw : window env haystack start = (haystack.drop start).take env.maxLength := rfl
    cases hb : env.lsm (window env haystack start) needle with
    | nil =>
      left
      refine ⟨h, ?_, ?_⟩
      · rintro ⟨x, bs, e, _⟩
        rw [hb] at e; cases e
      · rw [stridedSearch, if_neg (by simpa using h)]
        simp only [← hw, hb]
    | cons x bs =>
      by_cases h1 : (env.stride < x.a || x.size = 0) = true
      · left
        refine ⟨h, ?_, ?_⟩
        · rintro ⟨y, bs', e, h2, h3, _⟩
          rw [hb] at e; cases e
          simp at h1; omega
        · rw [stridedSearch, if_neg (by simpa using h)]
          simp only [← hw, hb]
          rw [if_pos h1]
      · by_cases h2 : env.gap haystack needle (x :: bs) < env.threshold
        · have hna : ¬ Accepted env haystack needle start := by
            rintro ⟨y, bs', e, _, _, h4⟩
            rw [hb] at e; cases e
            exact absurd h2 (Rat.not_lt.2 h4)
          by_cases h3 : maxChunks ≤ 1
          · left
            refine ⟨h, hna, ?_⟩
            rw [stridedSearch, if_neg (by simpa using h)]
            simp only [← hw, hb]
            rw [if_neg h1, if_pos h2, if_pos h3]
          · right; left
            refine ⟨h, hna, by omega, ⟨x, bs, rfl⟩, ?_⟩
            rw [stridedSearch, if_neg (by simpa using h)]
            simp only [← hw, hb]
            rw [if_neg h1, if_pos h2, if_neg h3]
            rfl
        · right; right
          refine ⟨h, ?_, ?_⟩
          · simp at h1
            exact ⟨x, bs, hb, by omega, by omega, Rat.not_lt.1 h2⟩
          · rw [stridedSearch, if_neg (by simpa using h)]
            simp only [← hw, hb]
            rw [if_neg h1, if_neg h2]
            unfold offsetBlocks moved
            congr 2
            apply List.map_congr_left
            intro y _
            rw [Nat.add_comm]; rfl
  · left
    refine ⟨by omega, ?_⟩
    rw [stridedSearch, if_pos (by simpa using h)]

/-- The bound on the number of rounds suffices. -/
theorem stridedSearch_fuel (env : StridedEnv) (haystack : Str) (hs : 0 < env.stride) (fuel : Nat) (maxChunks : Int)
    (needle : Str) (start : Nat) (h : searchFuel haystack.length maxChunks start ≤ fuel) :
    ∃ r, stridedSearch env haystack fuel maxChunks needle start = some r := by
  unfold searchFuel at h
  induction fuel generalizing maxChunks needle start with
  | zero => omega
  | succ fuel ih =>
    have hnext : ∀ n, start < haystack.length →
        ∃ r, stridedSearch env haystack fuel maxChunks n (start + env.stride) = some r :=
      fun n hlt => ih maxChunks n _ (by omega)
    rcases stridedSearch_cases env haystack fuel maxChunks needle start with h1 | h1 | h1 | h1
    · exact ⟨_, h1.2⟩
    · rw [h1.2.2]; exact hnext _ h1.1
    · obtain ⟨hlt, _, hm, _, e⟩ := h1
      rw [e]
      have hrec : ∀ n st, ∃ r, stridedSearch env haystack fuel (maxChunks - 1) n st = some r := by
        intro n st
        apply ih
        have : maxChunks.toNat = (maxChunks - 1).toNat + 1 := by omega
        rw [this, Nat.add_mul, Nat.one_mul] at h
        omega
      unfold chunkStep
      split
      · obtain ⟨r, hr⟩ := hrec (needle.drop (blocksEnd (firstChunk env haystack needle
          (env.lsm (window env haystack start) needle) ((env.lsm (window env haystack start) needle).length - 1))))
          (start + blocksEnd (firstChunk env haystack needle
          (env.lsm (window env haystack start) needle) ((env.lsm (window env haystack start) needle).length - 1)))
        rw [hr]
        cases r with
        | nil => exact hnext _ hlt
        | cons r rs => exact ⟨_, rfl⟩
      · split
        · obtain ⟨r, hr⟩ := hrec (needle.take ((blocksStart (lastChunk env haystack needle
            (env.lsm (window env haystack start) needle))).getD 0)) 0
          rw [hr]
          cases r with
          | nil => exact hnext _ hlt
          | cons r rs => exact ⟨_, rfl⟩
        · exact hnext _ hlt
    · exact ⟨_, h1.2.2⟩

/-- A result does not depend on the bound. -/
theorem stridedSearch_mono (env : StridedEnv) (haystack : Str) (fuel : Nat) (maxChunks : Int)
    (needle : Str) (start : Nat) (r : List (List Block))
    (h : stridedSearch env haystack fuel maxChunks needle start = some r) :
    stridedSearch env haystack (fuel + 1) maxChunks needle start = some r := by
  induction fuel generalizing maxChunks needle start r with
  | zero => simp [stridedSearch] at h
  | succ fuel ih =>
    have hchunk : ∀ bs r, chunkStep env haystack (stridedSearch env haystack fuel) maxChunks needle start bs = some r →
        chunkStep env haystack (stridedSearch env haystack (fuel + 1)) maxChunks needle start bs = some r := by
      intro bs r h
      unfold chunkStep at h ⊢
      split
      · next h1 =>
        rw [if_pos h1] at h
        split at h
        · cases h
        · next h2 => rw [ih _ _ _ _ h2]; exact ih _ _ _ _ h
        · next h2 => rw [ih _ _ _ _ h2]; exact h
      · next h1 =>
        rw [if_neg h1] at h
        split
        · next h3 =>
          rw [if_pos h3] at h
          split at h
          · cases h
          · next h2 => rw [ih _ _ _ _ h2]; exact ih _ _ _ _ h
          · next h2 => rw [ih _ _ _ _ h2]; exact h
        · next h3 =>
          rw [if_neg h3] at h
          exact ih _ _ _ _ h
    unfold stridedSearch at h ⊢
    by_cases h0 : ¬ start < haystack.length
    · rw [if_pos h0] at h ⊢; exact h
    · rw [if_neg h0] at h ⊢
      simp only at h ⊢
      split
      · next hb => simp only [hb] at h; exact ih _ _ _ _ h
      · next x bs hb =>
        simp only [hb] at h ⊢
        split
        · next h1 => rw [if_pos h1] at h; exact ih _ _ _ _ h
        · next h1 =>
          rw [if_neg h1] at h
          split
          · next h2 =>
            rw [if_pos h2] at h
            split
            · next h3 => rw [if_pos h3] at h; exact ih _ _ _ _ h
            · next h3 =>
              rw [if_neg h3] at h
              have := hchunk (env.lsm ((haystack.drop start).take env.maxLength) needle) r
              simp only [hb] at this
              exact this h
          · next h2 => rw [if_neg h2] at h; exact h

theorem stridedSearch_mono_le (env : StridedEnv) (haystack : Str) (fuel k : Nat) (maxChunks : Int)
    (needle : Str) (start : Nat) (r : List (List Block))
    (h : stridedSearch env haystack fuel maxChunks needle start = some r) :
    stridedSearch env haystack (fuel + k) maxChunks needle start = some r := by
  induction k with
  | zero => exact h
  | succ k ih => exact stridedSearch_mono env haystack (fuel + k) maxChunks needle start r ih

/-- If nothing is found, no window is accepted. -/
theorem stridedSearch_nothing (env : StridedEnv) (haystack : Str) (fuel : Nat) (maxChunks : Int) (needle : Str) (start : Nat)
    (h : stridedSearch env haystack fuel maxChunks needle start = some []) :
    ∀ k, start + k * env.stride < haystack.length → ¬ Accepted env haystack needle (start + k * env.stride) := by
  induction fuel generalizing start with
  | zero => simp [stridedSearch] at h
  | succ fuel ih =>
    have next : ¬ Accepted env haystack needle start →
        stridedSearch env haystack fuel maxChunks needle (start + env.stride) = some [] →
        ∀ k, start + k * env.stride < haystack.length → ¬ Accepted env haystack needle (start + k * env.stride) := by
      intro h0 h1 k hk
      cases k with
      | zero => simpa using h0
      | succ k =>
        have := ih _ h1 k
        rw [Nat.add_mul, Nat.one_mul, Nat.add_comm (k * env.stride), ← Nat.add_assoc] at hk ⊢
        exact this hk
    rcases stridedSearch_cases env haystack fuel maxChunks needle start with h1 | h1 | h1 | h1
    · intro k hk; omega
    · rw [h1.2.2] at h
      exact next h1.2.1 h
    · rw [h1.2.2.2.2] at h
      refine next h1.2.1 ?_
      unfold chunkStep at h
      split at h
      · split at h
        · cases h
        · exact h
        · cases h
      · split at h
        · split at h
          · cases h
          · exact h
          · have := Option.some.inj h
            simp at this
        · exact h
    · rw [h1.2.2] at h
      cases h

/-- With a single chunk the search returns the first accepted window. -/
theorem stridedSearch_single (env : StridedEnv) (haystack : Str) (fuel : Nat) (maxChunks : Int) (hm : maxChunks ≤ 1)
    (needle : Str) (start : Nat) (r : List (List Block))
    (h : stridedSearch env haystack fuel maxChunks needle start = some r) :
    (r = [] ∧ ∀ k, start + k * env.stride < haystack.length → ¬ Accepted env haystack needle (start + k * env.stride)) ∨
    (∃ k, start + k * env.stride < haystack.length ∧ Accepted env haystack needle (start + k * env.stride) ∧
      (∀ j, j < k → ¬ Accepted env haystack needle (start + j * env.stride)) ∧
      r = [moved (start + k * env.stride) (env.lsm (window env haystack (start + k * env.stride)) needle)]) := by
  induction fuel generalizing start with
  | zero => simp [stridedSearch] at h
  | succ fuel ih =>
    rcases stridedSearch_cases env haystack fuel maxChunks needle start with h1 | h1 | h1 | h1
    · left
      rw [h1.2] at h
      refine ⟨(Option.some.inj h).symm, ?_⟩
      intro k hk
      omega
    · rw [h1.2.2] at h
      rcases ih _ h with ⟨e, h2⟩ | ⟨k, h2, h3, h4, e⟩
      · left
        refine ⟨e, ?_⟩
        intro k hk
        cases k with
        | zero => simpa using h1.2.1
        | succ k =>
          have := h2 k
          rw [Nat.add_mul, Nat.one_mul, Nat.add_comm (k * env.stride), ← Nat.add_assoc] at hk ⊢
          exact this hk
      · right
        have he : start + (k + 1) * env.stride = start + env.stride + k * env.stride := by
          rw [Nat.add_mul, Nat.one_mul]; omega
        refine ⟨k + 1, by rw [he]; exact h2, by rw [he]; exact h3, ?_, by rw [he]; exact e⟩
        intro j hj
        cases j with
        | zero => simpa using h1.2.1
        | succ j =>
          have := h4 j (by omega)
          rw [Nat.add_mul, Nat.one_mul, Nat.add_comm (j * env.stride), ← Nat.add_assoc]
          exact this
    · omega
    · right
      rw [h1.2.2] at h
      refine ⟨0, by simpa using h1.1, by simpa using h1.2.1, by omega, ?_⟩
      rw [← Option.some.inj h]
      simp

theorem default_stride_pos (rnd : Rat → Int) (h n : Nat) (t : Rat) (hh : 0 < h) :
    0 < (defaultMaxLengthAndStride rnd h n t).2 := by
  unfold defaultMaxLengthAndStride
  split
  · simp only; omega
  · simp only
    generalize (rnd _) = d
    omega

/-! ## Results -/

theorem mapM_ok_iff {α β : Type} (f : α → Except Err β) (l : List α) (r : List β) :
    l.mapM f = .ok r ↔ l.map f = r.map Except.ok := by
  induction l generalizing r with
  | nil =>
    rw [List.mapM_nil]
    constructor
    · intro h; cases h; rfl
    · intro h
      cases r with
      | nil => rfl
      | cons _ _ => simp at h
  | cons x l ih =>
    rw [List.mapM_cons, List.map_cons]
    cases hx : f x with
    | error e =>
      constructor
      · intro h; cases h
      · intro h
        cases r with
        | nil => simp at h
        | cons y r => simp at h
    | ok y =>
      cases hl : l.mapM f with
      | error e =>
        constructor
        · intro h; cases h
        · intro h
          cases r with
          | nil => simp at h
          | cons z r =>
            rw [List.map_cons, List.cons.injEq] at h
            rw [(ih r).2 h.2] at hl; cases hl
      | ok ys =>
        have := (ih ys).1 hl
        constructor
        · intro h; cases h; rw [this]; rfl
        · intro h
          cases r with
          | nil => simp at h
          | cons z r =>
            rw [List.map_cons, List.cons.injEq] at h
            have h2 := (ih r).2 h.2
            rw [hl] at h2
            cases h2
            cases h.1
            rfl

theorem mem_of_mapM {α β : Type} {f : α → Except Err β} {l : List α} {r : List β} (h : l.mapM f = .ok r)
    {y : β} (hy : y ∈ r) : ∃ x ∈ l, f x = .ok y := by
  rw [mapM_ok_iff] at h
  have : Except.ok y ∈ l.map f := by rw [h]; exact List.mem_map.2 ⟨y, hy, rfl⟩
  obtain ⟨x, hx, e⟩ := List.mem_map.1 this
  exact ⟨x, hx, e⟩

theorem mapM_mem {α β : Type} {f : α → Except Err β} {l : List α} {r : List β} (h : l.mapM f = .ok r)
    {x : α} (hx : x ∈ l) : ∃ y ∈ r, f x = .ok y := by
  rw [mapM_ok_iff] at h
  have : f x ∈ r.map Except.ok := by rw [← h]; exact List.mem_map.2 ⟨x, hx, rfl⟩
  obtain ⟨y, hy, e⟩ := List.mem_map.1 this
  exact ⟨y, hy, e.symm⟩

/-- Some block matches a character. -/
def HasBlock (bs : List Block) : Prop := ∃ x ∈ bs, x.size ≠ 0

theorem hasBlock_offset (a b : Nat) (bs : List Block) (h : HasBlock bs) : HasBlock (offsetBlocks a b bs) := by
  obtain ⟨x, hx, h0⟩ := h
  exact ⟨⟨x.a + a, x.b + b, x.size⟩, List.mem_map.2 ⟨x, hx, rfl⟩, h0⟩

theorem hasBlock_of_end (bs : List Block) (h : blocksEnd bs ≠ 0) : HasBlock bs := by
  unfold blocksEnd at h
  split at h
  · omega
  · next x hx =>
    split at h
    · omega
    · next h0 => exact ⟨x, List.mem_of_getLast? hx, h0⟩

theorem hasBlock_firstChunk (env : StridedEnv) (haystack needle : Str) (bs : List Block) (n : Nat) :
    firstChunk env haystack needle bs n = [] ∨ HasBlock (firstChunk env haystack needle bs n) := by
  induction n with
  | zero => left; rfl
  | succ n ih =>
    unfold firstChunk
    simp only
    split
    · left; rfl
    · next h =>
      split
      · right; exact hasBlock_of_end _ h
      · exact ih

theorem hasBlock_lastChunk (env : StridedEnv) (haystack needle : Str) (bs : List Block) :
    lastChunk env haystack needle bs = [] ∨ HasBlock (lastChunk env haystack needle bs) := by
  induction bs with
  | nil => left; rfl
  | cons x bs ih =>
    unfold lastChunk
    split
    · left; rfl
    · next st hst =>
      split
      · right
        unfold blocksStart at hst
        simp only [List.head?_cons] at hst
        split at hst
        · cases hst
        · next h0 => exact ⟨x, by simp, h0⟩
      · exact ih

theorem hasBlock_strided (env : StridedEnv) (haystack : Str) (fuel : Nat) (maxChunks : Int)
    (needle : Str) (start : Nat) (r : List (List Block))
    (h : stridedSearch env haystack fuel maxChunks needle start = some r) : ∀ c ∈ r, HasBlock c := by
  induction fuel generalizing maxChunks needle start r with
  | zero => simp [stridedSearch] at h
  | succ fuel ih =>
    rcases stridedSearch_cases env haystack fuel maxChunks needle start with h1 | h1 | h1 | h1
    · rw [h1.2] at h; cases h; simp
    · rw [h1.2.2] at h; exact ih _ _ _ _ h
    · obtain ⟨_, _, _, _, e⟩ := h1
      rw [e] at h
      unfold chunkStep at h
      split at h
      · next hf =>
        split at h
        · cases h
        · exact ih _ _ _ _ h
        · next r' rs hr =>
          cases h
          intro c hc
          rw [List.mem_cons] at hc
          rcases hc with hc | hc
          · subst hc
            rcases hasBlock_firstChunk env haystack needle (env.lsm (window env haystack start) needle)
              ((env.lsm (window env haystack start) needle).length - 1) with h0 | h0
            · rw [h0] at hf; simp at hf
            · exact h0
          · obtain ⟨d, hd, rfl⟩ := List.mem_map.1 hc
            exact hasBlock_offset _ _ _ (ih _ _ _ _ hr d hd)
      · split at h
        · next hf =>
          split at h
          · cases h
          · exact ih _ _ _ _ h
          · next r' rs hr =>
            cases h
            intro c hc
            rw [List.mem_append, List.mem_singleton] at hc
            rcases hc with hc | hc
            · exact ih _ _ _ _ hr c hc
            · subst hc
              rcases hasBlock_lastChunk env haystack needle (env.lsm (window env haystack start) needle) with h0 | h0
              · rw [h0] at hf; simp at hf
              · exact h0
        · exact ih _ _ _ _ h
    · obtain ⟨_, ⟨x, bs, e, _, h0, _⟩, e2⟩ := h1
      rw [e2, e] at h
      cases h
      intro c hc
      rw [List.mem_singleton] at hc
      subst hc
      exact ⟨⟨start + x.a, x.b, x.size⟩, by simp [moved], by simp only; omega⟩

theorem mapBlock_size (hv nv : StringView) (x y : Block) (h : mapBlock hv nv x = .ok y) : y.size ≠ 0 := by
  unfold mapBlock at h
  split at h
  · cases h; simp
  · cases h

theorem matchCount_pos (r : FuzzyResult) (t : Rat) (ht : 0 < t) (h : ¬ r.bGapRatioFixed < t) : HasBlock r.blocks := by
  refine Classical.byContradiction fun hn => h ?_
  have h0 : r.matchCount = 0 := by
    unfold FuzzyResult.matchCount
    have hall : ∀ x ∈ r.blocks, x.size = 0 :=
      fun x hx => Classical.byContradiction fun hne => hn ⟨x, hx, hne⟩
    generalize r.blocks = l at hall
    induction l with
    | nil => rfl
    | cons x l ih =>
      rw [List.map_cons, List.sum_cons, hall x (by simp), ih (fun y hy => hall y (by simp [hy]))]
  unfold FuzzyResult.bGapRatioFixed FuzzyResult.ratioTo
  simp only [h0]
  split
  · exact ht
  · rw [Rat.div_def]
    simpa using ht

/-- Every match found starts at or after the given position and is not empty. -/
theorem searchChunks_start (env : SearchEnv) (ht : 0 < env.threshold) (haystack needle : Str) (start : Nat)
    (ms : List FuzzyResult) (h : fuzzySearchChunks env haystack needle start = .ok (some ms)) :
    ms ≠ [] ∧ ∀ m ∈ ms, m.a = haystack ∧ m.b = needle ∧ m.isJunk = env.isJunk ∧ HasBlock m.blocks ∧
      ∀ x ∈ m.blocks, start ≤ x.a := by
  unfold fuzzySearchChunks at h
  simp only at h
  split at h
  · split at h
    · cases h
    · split at h
      · cases h
      · next h1 =>
        cases h
        refine ⟨by simp, ?_⟩
        intro m hm
        rw [List.mem_singleton] at hm
        subst hm
        refine ⟨rfl, rfl, rfl, matchCount_pos _ _ ht h1, ?_⟩
        intro x hx
        obtain ⟨y, _, rfl⟩ := List.mem_map.1 hx
        simp only; omega
  · split at h
    · cases h
    · cases h
    · next c cs hs =>
      split at h
      · cases h
      · next chunks hc =>
        cases h
        refine ⟨?_, ?_⟩
        · intro e
          rw [List.map_eq_nil_iff] at e
          subst e
          rw [mapM_ok_iff] at hc
          simp at hc
        · intro m hm
          obtain ⟨bs, hbs, rfl⟩ := List.mem_map.1 hm
          obtain ⟨raw, hraw, e⟩ := mem_of_mapM hc hbs
          unfold autoStridedSearch at hs
          simp only at hs
          obtain ⟨x, hx, h0⟩ := hasBlock_strided _ _ _ _ _ _ _ hs raw hraw
          obtain ⟨y, hy, ey⟩ := mapM_mem e (List.mem_filter.2 ⟨hx, by simpa using h0⟩)
          refine ⟨rfl, rfl, rfl, hasBlock_offset _ _ _ ⟨y, hy, mapBlock_size _ _ _ _ ey⟩, ?_⟩
          intro z hz
          obtain ⟨y, _, rfl⟩ := List.mem_map.1 hz
          simp only; omega

theorem aRange_start (r : FuzzyResult) (start : Nat) (h : HasBlock r.blocks) (hs : ∀ x ∈ r.blocks, start ≤ x.a) :
    start ≤ r.aRange.1 ∧ start < r.aRange.2 := by
  obtain ⟨x, hx, h0⟩ := h
  have hx' : x ∈ r.nonEmpty := List.mem_filter.2 ⟨hx, by simpa using h0⟩
  have hne : r.nonEmpty ≠ [] := List.ne_nil_of_mem hx'
  unfold FuzzyResult.aRange
  rw [List.head?_eq_some_head hne, List.getLast?_eq_some_getLast hne]
  simp only
  have h1 := List.mem_filter.1 (List.head_mem hne)
  have h2 := List.mem_filter.1 (List.getLast_mem hne)
  have h3 := hs _ h1.1
  have h4 := hs _ h2.1
  have h5 : (r.nonEmpty.getLast hne).size ≠ 0 := by simpa using h2.2
  exact ⟨h3, by omega⟩

theorem fuzzySearch_start (env : SearchEnv) (ht : 0 < env.threshold) (haystack needle : Str) (start : Nat)
    (m : FuzzyResult) (h : fuzzySearch env haystack needle start = .ok (some m)) :
    m.a = haystack ∧ m.b = needle ∧ m.isJunk = env.isJunk ∧ start ≤ m.aRange.1 ∧ start < m.aRange.2 := by
  unfold fuzzySearch at h
  split at h
  · cases h
  · cases h
  · next ms hms =>
    cases h
    obtain ⟨hne, hall⟩ := searchChunks_start env ht haystack needle start ms hms
    obtain ⟨m, hm⟩ := List.exists_mem_of_ne_nil ms hne
    obtain ⟨_, _, _, ⟨x, hx, h0⟩, _⟩ := hall m hm
    refine ⟨rfl, rfl, rfl, aRange_start _ start ⟨x, List.mem_flatMap.2 ⟨m, hm, hx⟩, h0⟩ ?_⟩
    intro y hy
    obtain ⟨m', hm', hy'⟩ := List.mem_flatMap.1 hy
    exact (hall m' hm').2.2.2.2 y hy'

/-! ## All matches -/

/-- The iteration: every match is the result of a search from the end of the match before; at the end
nothing more is found. -/
theorem searchAll_spec (search : Nat → Except Err (Option FuzzyResult)) (length start : Nat) :
    (searchAll search length start).1.length ≤ length - start ∧
    (∀ i m, (searchAll search length start).1[i]? = some m →
      search (startOf start (searchAll search length start).1 i) = .ok (some m) ∧
      startOf start (searchAll search length start).1 i < length) ∧
    (∀ e, (searchAll search length start).2 = some e →
      search (startOf start (searchAll search length start).1 (searchAll search length start).1.length) = .error e) ∧
    ((searchAll search length start).2 = none →
      let last := startOf start (searchAll search length start).1 (searchAll search length start).1.length
      length ≤ last ∨ search last = .ok none ∨
        ∃ n, n + 1 = (searchAll search length start).1.length ∧
          last ≤ startOf start (searchAll search length start).1 n) := by
  generalize hk : length - start = k
  induction k using Nat.strongRecOn generalizing start with
  | ind k ih =>
    unfold searchAll
    split
    · next hlt =>
      cases hs : search start with
      | error e =>
        simp only
        refine ⟨by simp, by simp, ?_, by simp⟩
        intro e' he
        cases he
        exact hs
      | ok o =>
        cases o with
        | none =>
          simp only
          refine ⟨by simp, by simp, by simp, ?_⟩
          intro _
          right; left; exact hs
        | some fm =>
          simp only
          split
          · next hle =>
            refine ⟨by simp; omega, ?_, by simp, ?_⟩
            · intro i m hi
              cases i with
              | zero => simp at hi; subst hi; exact ⟨hs, hlt⟩
              | succ i => simp at hi
            · intro _
              right; right
              exact ⟨0, rfl, hle⟩
          · next hle =>
            have ⟨i1, i2, i3, i4⟩ := ih (length - fm.aRange.2) (by omega) fm.aRange.2 rfl
            simp only
            have hst : ∀ i, startOf start (fm :: (searchAll search length fm.aRange.2).1) (i + 1) =
                startOf fm.aRange.2 (searchAll search length fm.aRange.2).1 i := by
              intro i
              cases i with
              | zero => rfl
              | succ i => simp [startOf]
            refine ⟨by simp; omega, ?_, ?_, ?_⟩
            · intro i m hi
              cases i with
              | zero => simp at hi; subst hi; exact ⟨hs, hlt⟩
              | succ i =>
                rw [List.getElem?_cons_succ] at hi
                rw [hst]
                exact i2 i m hi
            · intro e he
              rw [List.length_cons, hst]
              exact i3 e he
            · intro he
              simp only [List.length_cons, hst]
              rcases i4 he with h | h | ⟨n, hn, h⟩
              · exact .inl h
              · exact .inr (.inl h)
              · refine .inr (.inr ⟨n + 1, by omega, ?_⟩)
                rw [hst]; exact h
    · refine ⟨by simp, by simp, by simp, ?_⟩
      intro _
      left; simp [startOf]; omega

/-- The ranges found by the iteration follow one another. -/
theorem searchAll_ordered (search : Nat → Except Err (Option FuzzyResult))
    (hs : ∀ st m, search st = .ok (some m) → st ≤ m.aRange.1) (length start : Nat) :
    (∀ m ∈ (searchAll search length start).1, start ≤ m.aRange.1) ∧
    (searchAll search length start).1.Pairwise (fun m n => m.aRange.2 ≤ n.aRange.1) := by
  generalize hk : length - start = k
  induction k using Nat.strongRecOn generalizing start with
  | ind k ih =>
    unfold searchAll
    split
    · next hlt =>
      cases hs' : search start with
      | error e => simp
      | ok o =>
        cases o with
        | none => simp
        | some fm =>
          simp only
          have h0 := hs start fm hs'
          split
          · simpa using h0
          · next hle =>
            have ⟨i1, i2⟩ := ih (length - fm.aRange.2) (by omega) fm.aRange.2 rfl
            refine ⟨?_, ?_⟩
            · intro m hm
              rw [List.mem_cons] at hm
              rcases hm with hm | hm
              · subst hm; exact h0
              · have := i1 m hm; omega
            · rw [List.pairwise_cons]
              exact ⟨i1, i2⟩
    · simp

/-! ## Words -/

/-- The tokens follow one another from a position on. -/
def Contiguous : Nat → List (Nat × Str) → Prop
  | _, [] => True
  | n, (i, w) :: t => i = n ∧ Contiguous (n + w.length) t

theorem splitLoop_spec (sep : List Char) (prev : Nat) (cur s : Str) (hc : ∀ c ∈ cur, sep.contains c = false) :
    Contiguous prev (splitWithOffsetLoop sep prev cur s) ∧
    ((splitWithOffsetLoop sep prev cur s).map Prod.snd).flatten = cur ++ s ∧
    ∀ t ∈ splitWithOffsetLoop sep prev cur s,
      (∃ c, t.2 = [c] ∧ sep.contains c = true) ∨ (t.2 ≠ [] ∧ ∀ c ∈ t.2, sep.contains c = false) := by
  induction s generalizing prev cur with
  | nil =>
    unfold splitWithOffsetLoop
    cases cur with
    | nil => simp [Contiguous]
    | cons d cur =>
      simp only [List.isEmpty_cons]
      refine ⟨⟨rfl, trivial⟩, by simp, ?_⟩
      intro t ht
      simp at ht
      subst ht
      exact .inr ⟨by simp, hc⟩
  | cons c s ih =>
    unfold splitWithOffsetLoop
    split
    · next hs =>
      obtain ⟨h1, h2, h3⟩ := ih (prev + cur.length + 1) [] (by simp)
      cases cur with
      | nil =>
        simp only [List.isEmpty_nil, if_true, List.nil_append, List.length_nil, Nat.add_zero] at h1 h2 h3 ⊢
        refine ⟨⟨rfl, h1⟩, by simp [h2], ?_⟩
        intro t ht
        rw [List.mem_cons] at ht
        rcases ht with ht | ht
        · subst ht; exact .inl ⟨c, rfl, hs⟩
        · exact h3 t ht
      | cons d cur =>
        refine ⟨⟨rfl, rfl, h1⟩, by simpa using h2, ?_⟩
        intro t ht
        simp only [List.isEmpty_cons, Bool.false_eq_true, if_false, List.cons_append, List.nil_append, List.mem_cons] at ht
        rcases ht with ht | ht | ht
        · subst ht; exact .inr ⟨by simp, hc⟩
        · subst ht; exact .inl ⟨c, rfl, hs⟩
        · exact h3 t ht
    · next hs =>
      obtain ⟨h1, h2, h3⟩ := ih prev (cur ++ [c]) (by
        intro d hd
        rw [List.mem_append, List.mem_singleton] at hd
        rcases hd with hd | hd
        · exact hc d hd
        · subst hd; simpa using hs)
      exact ⟨h1, by simpa using h2, h3⟩

/-- The position at which the `k`-th word starts. -/
def wordStart (t : List (Nat × Str)) (k : Nat) : Nat := ((t.take k).map (fun w => w.2.length)).sum

theorem contiguous_get (n : Nat) (t : List (Nat × Str)) (h : Contiguous n t) (k i : Nat) (w : Str)
    (hk : t[k]? = some (i, w)) : i = n + wordStart t k := by
  induction t generalizing n k with
  | nil => simp at hk
  | cons p t ih =>
    obtain ⟨j, v⟩ := p
    obtain ⟨h1, h2⟩ := h
    cases k with
    | zero =>
      simp at hk
      simp [wordStart, ← hk.1, h1]
    | succ k =>
      rw [List.getElem?_cons_succ] at hk
      have := ih _ h2 k hk
      simp only [wordStart, List.take_succ_cons, List.map_cons, List.sum_cons] at this ⊢
      omega

theorem wordStart_add (t : List (Nat × Str)) (k n : Nat) :
    wordStart t (k + n) = wordStart t k + (((t.drop k).take n).map (fun w => w.2.length)).sum := by
  unfold wordStart
  rw [List.take_add, List.map_append, List.sum_append]

theorem wordStart_mono (t : List (Nat × Str)) (j k : Nat) (h : j ≤ k) : wordStart t j ≤ wordStart t k := by
  obtain ⟨n, rfl⟩ := Nat.le.dest h
  rw [wordStart_add]; omega

theorem length_flatten_words (t : List (Nat × Str)) :
    (t.map Prod.snd).flatten.length = (t.map (fun w => w.2.length)).sum := by
  rw [List.length_flatten, List.map_map]; rfl

theorem wordStart_le (t : List (Nat × Str)) (s : Str) (h : (t.map Prod.snd).flatten = s) (k : Nat) :
    wordStart t k ≤ s.length := by
  rw [← h, length_flatten_words]
  have : wordStart t k ≤ wordStart t (k + t.length) := wordStart_mono t k _ (by omega)
  refine Nat.le_trans this ?_
  unfold wordStart
  rw [List.take_of_length_le (by omega)]
  exact Nat.le_refl _

theorem slice_words (t : List (Nat × Str)) (s : Str) (h : (t.map Prod.snd).flatten = s) (k n : Nat) :
    slice s (wordStart t k) (wordStart t (k + n) - wordStart t k) =
      (((t.drop k).take n).map Prod.snd).flatten := by
  have e : s = ((t.take k).map Prod.snd).flatten ++ ((((t.drop k).take n).map Prod.snd).flatten ++
      (((t.drop k).drop n).map Prod.snd).flatten) := by
    rw [← h, ← List.flatten_append, ← List.map_append, ← List.flatten_append, ← List.map_append,
      List.take_append_drop, List.take_append_drop]
  have l1 : wordStart t k = ((t.take k).map Prod.snd).flatten.length := by rw [length_flatten_words]; rfl
  have l2 : wordStart t (k + n) - wordStart t k = (((t.drop k).take n).map Prod.snd).flatten.length := by
    rw [length_flatten_words, wordStart_add]; omega
  unfold slice
  rw [l2, l1, e, List.drop_left, List.take_left]

theorem aligned_of_slice (a b : Str) (x : Block) (h : slice a x.a x.size = slice b x.b x.size)
    (hl : x.a + x.size ≤ a.length) :
    ∀ k, k < x.size → ∃ c, a[x.a + k]? = some c ∧ b[x.b + k]? = some c := by
  intro k hk
  have h1 : (slice a x.a x.size)[k]? = a[x.a + k]? := by
    unfold slice; rw [take_getElem? _ _ _ hk, List.getElem?_drop]
  have h2 : (slice b x.b x.size)[k]? = b[x.b + k]? := by
    unfold slice; rw [take_getElem? _ _ _ hk, List.getElem?_drop]
  have h3 : a[x.a + k]? = some a[x.a + k] := List.getElem?_eq_getElem (by omega)
  exact ⟨_, h3, by rw [← h2, ← h, h1, h3]⟩

/-- A block of words as a block of characters. -/
def charBlock (aw bw : List (Nat × Str)) (x : Block) : Block :=
  ⟨wordStart aw x.a, wordStart bw x.b, wordStart aw (x.a + x.size) - wordStart aw x.a⟩

theorem wordBlocks_ok (diff : List Str → List Str → List Block) (a b : Str)
    (hd : Consistent ((splitWithOffset wordSeparators a).map Prod.snd) ((splitWithOffset wordSeparators b).map Prod.snd)
      (diff ((splitWithOffset wordSeparators a).map Prod.snd) ((splitWithOffset wordSeparators b).map Prod.snd))) :
    wordBlocks diff a b = .ok (((diff ((splitWithOffset wordSeparators a).map Prod.snd)
      ((splitWithOffset wordSeparators b).map Prod.snd)).filter (fun x => x.size ≠ 0)).map
        (charBlock (splitWithOffset wordSeparators a) (splitWithOffset wordSeparators b))) := by
  obtain ⟨ca, _, _⟩ := splitLoop_spec wordSeparators 0 [] a (by simp)
  obtain ⟨cb, _, _⟩ := splitLoop_spec wordSeparators 0 [] b (by simp)
  unfold wordBlocks
  simp only
  rw [mapM_ok_iff, List.map_map]
  apply List.map_congr_left
  intro x hx
  rw [List.mem_filter] at hx
  have h0 : x.size ≠ 0 := by simpa using hx.2
  have h1 := hd.aIn x hx.1
  have h2 := hd.bIn x hx.1
  rw [List.length_map] at h1 h2
  have ga : (splitWithOffset wordSeparators a)[x.a]? = some (splitWithOffset wordSeparators a)[x.a] :=
    List.getElem?_eq_getElem (by omega)
  have gb : (splitWithOffset wordSeparators b)[x.b]? = some (splitWithOffset wordSeparators b)[x.b] :=
    List.getElem?_eq_getElem (by omega)
  generalize (splitWithOffset wordSeparators a)[x.a] = wa at ga
  generalize (splitWithOffset wordSeparators b)[x.b] = wb at gb
  obtain ⟨i, wa⟩ := wa
  obtain ⟨j, wb⟩ := wb
  have e1 := contiguous_get 0 _ ca x.a i wa ga
  have e2 := contiguous_get 0 _ cb x.b j wb gb
  rw [ga, gb]
  simp only
  rw [if_pos h1]
  simp only [Function.comp, charBlock]
  rw [wordStart_add, e1, e2]
  congr 2
  · simp only [Nat.zero_add]; rfl
  · simp only [Nat.zero_add]; rfl
  · omega

/-- Aligned words give aligned characters. -/
theorem charBlock_aligned (aw bw : List (Nat × Str)) (a b : Str) (ha : (aw.map Prod.snd).flatten = a)
    (hb : (bw.map Prod.snd).flatten = b) (x : Block)
    (h : ∀ k, k < x.size → ∃ w, (aw.map Prod.snd)[x.a + k]? = some w ∧ (bw.map Prod.snd)[x.b + k]? = some w) :
    (charBlock aw bw x).size = wordStart bw (x.b + x.size) - wordStart bw x.b ∧
    slice a (charBlock aw bw x).a (charBlock aw bw x).size = slice b (charBlock aw bw x).b (charBlock aw bw x).size := by
  have e : (((aw.drop x.a).take x.size).map Prod.snd) = (((bw.drop x.b).take x.size).map Prod.snd) := by
    apply List.ext_getElem?
    intro k
    rw [List.map_take, List.map_take, List.map_drop, List.map_drop, List.getElem?_take, List.getElem?_take]
    split
    · next hk =>
      obtain ⟨w, h1, h2⟩ := h k hk
      rw [List.getElem?_drop, List.getElem?_drop, h1, h2]
    · rfl
  have hs : (charBlock aw bw x).size = wordStart bw (x.b + x.size) - wordStart bw x.b := by
    unfold charBlock
    simp only
    rw [wordStart_add, wordStart_add, Nat.add_sub_cancel_left, Nat.add_sub_cancel_left]
    have := congrArg (fun l : List Str => (l.map List.length).sum) e
    simp only [List.map_map] at this
    exact this
  refine ⟨hs, ?_⟩
  have h1 := slice_words aw a ha x.a x.size
  have h2 := slice_words bw b hb x.b x.size
  rw [← hs] at h2
  rw [e] at h1
  exact h1.trans h2.symm

theorem wordBlocks_consistent (aw bw : List (Nat × Str)) (a b : Str) (ha : (aw.map Prod.snd).flatten = a)
    (hb : (bw.map Prod.snd).flatten = b) (bs : List Block)
    (hd : Consistent (aw.map Prod.snd) (bw.map Prod.snd) bs) (hal : Aligned (aw.map Prod.snd) (bw.map Prod.snd) bs) :
    Consistent a b ((bs.filter (fun x => x.size ≠ 0)).map (charBlock aw bw)) ∧
    Aligned a b ((bs.filter (fun x => x.size ≠ 0)).map (charBlock aw bw)) := by
  have hin : ∀ x ∈ bs, (charBlock aw bw x).a + (charBlock aw bw x).size = wordStart aw (x.a + x.size) ∧
      (charBlock aw bw x).b + (charBlock aw bw x).size = wordStart bw (x.b + x.size) := by
    intro x hx
    have := (charBlock_aligned aw bw a b ha hb x (hal x hx)).1
    have h1 := wordStart_mono aw x.a (x.a + x.size) (by omega)
    have h2 := wordStart_mono bw x.b (x.b + x.size) (by omega)
    rw [this]
    refine ⟨?_, ?_⟩
    · rw [← this]; simp only [charBlock]; omega
    · simp only [charBlock]; omega
  have oa : Ordered (aPart (bs.filter (fun x => x.size ≠ 0))) := hd.aOrd.filter_aPart _
  have ob : Ordered (bPart (bs.filter (fun x => x.size ≠ 0))) := hd.bOrd.filter_bPart _
  refine ⟨⟨⟨?_, ?_⟩, ⟨?_, ?_⟩, ?_, ?_⟩, ?_⟩
  · intro r hr
    unfold aPart at hr
    rw [List.map_map] at hr
    obtain ⟨x, _, rfl⟩ := List.mem_map.1 hr
    simp
  · have := oa.next
    unfold aPart at this ⊢
    rw [List.map_map, List.pairwise_map]
    rw [List.pairwise_map] at this
    refine this.imp_of_mem ?_
    intro x y hx hy hxy
    simp only at hxy ⊢
    have := (hin x (List.mem_filter.1 hx).1).1
    have h2 := wordStart_mono aw (x.a + x.size) y.a hxy
    simp only [Function.comp]
    rw [this]; exact h2
  · intro r hr
    unfold bPart at hr
    rw [List.map_map] at hr
    obtain ⟨x, _, rfl⟩ := List.mem_map.1 hr
    simp
  · have := ob.next
    unfold bPart at this ⊢
    rw [List.map_map, List.pairwise_map]
    rw [List.pairwise_map] at this
    refine this.imp_of_mem ?_
    intro x y hx hy hxy
    simp only at hxy ⊢
    have := (hin x (List.mem_filter.1 hx).1).2
    have h2 := wordStart_mono bw (x.b + x.size) y.b hxy
    simp only [Function.comp]
    rw [this]; exact h2
  · intro y hy
    obtain ⟨x, hx, rfl⟩ := List.mem_map.1 hy
    rw [(hin x (List.mem_filter.1 hx).1).1]
    exact wordStart_le aw a ha _
  · intro y hy
    obtain ⟨x, hx, rfl⟩ := List.mem_map.1 hy
    rw [(hin x (List.mem_filter.1 hx).1).2]
    exact wordStart_le bw b hb _
  · intro y hy
    obtain ⟨x, hx, rfl⟩ := List.mem_map.1 hy
    have hx' := (List.mem_filter.1 hx).1
    apply aligned_of_slice
    · exact (charBlock_aligned aw bw a b ha hb x (hal x hx')).2
    · rw [(hin x hx').1]; exact wordStart_le aw a ha _

/-! ## Blocks of the views -/

/-- The original position of a position of the view. -/
def origAt (isJunk : IsJunk) (s : Str) (i : Nat) : Nat := ((noJunkView isJunk s).originalIndexAt[i]?).getD 0

theorem origAt_get (isJunk : IsJunk) (s : Str) (i : Nat) (h : i < (noJunkView isJunk s).view.length) :
    (noJunkView isJunk s).originalIndexAt[i]? = some (origAt isJunk s i) := by
  rw [noJunkView_view, List.length_map] at h
  unfold origAt
  rw [noJunkView_index, List.getElem?_map, List.getElem?_eq_getElem h]
  rfl

theorem origAt_lt (isJunk : IsJunk) (s : Str) (i j : Nat) (hij : i < j) (h : j < (noJunkView isJunk s).view.length) :
    origAt isJunk s i < origAt isJunk s j := by
  have h1 := origAt_get isJunk s i (by omega)
  have h2 := origAt_get isJunk s j h
  have hp := keptAt_pairwise isJunk s
  rw [noJunkView_index] at h1 h2
  rw [← List.pairwise_map (f := Prod.snd) (R := (· < ·)), List.pairwise_iff_getElem] at hp
  obtain ⟨b1, e1⟩ := List.getElem?_eq_some_iff.1 h1
  obtain ⟨b2, e2⟩ := List.getElem?_eq_some_iff.1 h2
  have := hp i j b1 b2 hij
  rw [e1, e2] at this
  exact this

theorem origAt_in (isJunk : IsJunk) (s : Str) (i : Nat) (h : i < (noJunkView isJunk s).view.length) :
    origAt isJunk s i < s.length := by
  have h1 := origAt_get isJunk s i h
  rw [noJunkView_index] at h1
  have := List.mem_of_getElem? h1
  obtain ⟨⟨c, k⟩, hm, e⟩ := List.mem_map.1 this
  simp only at e
  rw [mem_keptAt] at hm
  rw [← e]
  obtain ⟨hlt, _⟩ := List.getElem?_eq_some_iff.1 hm.1
  exact hlt

theorem mapBlock_ok (h n : Str) (x : Block) (h0 : x.size ≠ 0)
    (ha : x.a + x.size ≤ (noJunkView spaceIsJunk h).view.length)
    (hb : x.b + x.size ≤ (noJunkView spaceIsJunk n).view.length) :
    mapBlock (noJunkView spaceIsJunk h) (noJunkView spaceIsJunk n) x =
      .ok ⟨origAt spaceIsJunk h x.a, origAt spaceIsJunk n x.b,
        origAt spaceIsJunk h (x.a + x.size - 1) - origAt spaceIsJunk h x.a + 1⟩ := by
  unfold mapBlock
  rw [origAt_get _ _ _ (by omega), origAt_get _ _ _ (by omega), origAt_get _ _ _ (by omega)]

theorem aligned_drop {a b : Str} {st n : Nat} {bs : List Block}
    (hc : Consistent (slice a st n) b bs) (ha : Aligned (slice a st n) b bs) (hst : st ≤ a.length) :
    Consistent a b (moved st bs) ∧ Aligned a b (moved st bs) := by
  have ea : aPart (moved st bs) = (aPart bs).map (fun r => (st + r.1, st + r.2)) := by
    unfold aPart moved
    rw [List.map_map, List.map_map]
    apply List.map_congr_left
    intro x _
    simp [Nat.add_assoc]
  have eb : bPart (moved st bs) = bPart bs := by
    unfold bPart moved
    rw [List.map_map]; rfl
  refine ⟨⟨⟨?_, ?_⟩, ?_, ?_, ?_⟩, ?_⟩
  · rw [ea]
    intro r hr
    obtain ⟨q, hq, rfl⟩ := List.mem_map.1 hr
    have := hc.aOrd.each q hq
    simp only; omega
  · rw [ea, List.pairwise_map]
    refine hc.aOrd.next.imp ?_
    intro r q h
    simp only; omega
  · rw [eb]; exact hc.bOrd
  · intro x hx
    obtain ⟨y, hy, rfl⟩ := List.mem_map.1 hx
    have := hc.aIn y hy
    unfold slice at this
    rw [List.length_take, List.length_drop] at this
    simp only; omega
  · intro x hx
    obtain ⟨y, hy, rfl⟩ := List.mem_map.1 hx
    exact hc.bIn y hy
  · intro x hx k hk
    obtain ⟨y, hy, rfl⟩ := List.mem_map.1 hx
    obtain ⟨c, h1, h2⟩ := ha y hy k hk
    refine ⟨c, ?_, h2⟩
    unfold slice at h1
    rw [List.getElem?_take] at h1
    split at h1
    · rw [List.getElem?_drop] at h1
      rw [← h1]
      simp only
      congr 1; omega
    · cases h1

/-- A block of the views in the original texts: part of the first text and of the second text. -/
def origPart (s : Str) (i n : Nat) : Nat × Nat := (origAt spaceIsJunk s i, origAt spaceIsJunk s (i + n - 1) + 1)

theorem origPart_mono (s : Str) (i n j m : Nat) (hn : n ≠ 0) (h : i + n ≤ j) (hm : m ≠ 0)
    (hj : j + m ≤ (noJunkView spaceIsJunk s).view.length) : (origPart s i n).2 ≤ (origPart s j m).1 := by
  have := origAt_lt spaceIsJunk s (i + n - 1) j (by omega) (by omega)
  simp only [origPart]; omega

theorem origPart_le (s : Str) (i n : Nat) (hn : n ≠ 0) (hj : i + n ≤ (noJunkView spaceIsJunk s).view.length) :
    (origPart s i n).1 < (origPart s i n).2 ∧ (origPart s i n).2 ≤ s.length := by
  have h1 := origAt_in spaceIsJunk s (i + n - 1) (by omega)
  have h2 : origAt spaceIsJunk s i ≤ origAt spaceIsJunk s (i + n - 1) := by
    rcases Nat.lt_or_ge 1 n with h | h
    · exact Nat.le_of_lt (origAt_lt spaceIsJunk s i (i + n - 1) (by omega) (by omega))
    · have : i + n - 1 = i := by omega
      rw [this]; exact Nat.le_refl _
  simp only [origPart]; omega

theorem origPart_text (s : Str) (i n : Nat) (hn : n ≠ 0) (hj : i + n ≤ (noJunkView spaceIsJunk s).view.length) :
    noSpace (slice s (origPart s i n).1 ((origPart s i n).2 - (origPart s i n).1)) = slice (noSpace s) i n := by
  have h := noSpace_slice s i (n - 1) (origAt spaceIsJunk s i) (origAt spaceIsJunk s (i + n - 1))
    (origAt_get _ _ _ (by omega)) (by
      have e : i + (n - 1) = i + n - 1 := by omega
      rw [e]; exact origAt_get _ _ _ (by omega))
  have e : n - 1 + 1 = n := by omega
  rw [e] at h
  rw [← h.2]
  simp only [origPart]
  congr 2
  omega

/-- Consistent, aligned blocks of the views as blocks of the original texts. -/
theorem mapBlocks_text (h n : Str) (bs : List Block)
    (hc : Consistent (noSpace h) (noSpace n) bs) (ha : Aligned (noSpace h) (noSpace n) bs) :
    ∃ r, (bs.filter (fun x => x.size ≠ 0)).mapM (mapBlock (noJunkView spaceIsJunk h) (noJunkView spaceIsJunk n)) = .ok r ∧
      SameText 0 h n r := by
  have hk : ∀ x ∈ bs.filter (fun x => x.size ≠ 0), x.size ≠ 0 ∧
      x.a + x.size ≤ (noJunkView spaceIsJunk h).view.length ∧
      x.b + x.size ≤ (noJunkView spaceIsJunk n).view.length ∧
      slice (noSpace h) x.a x.size = slice (noSpace n) x.b x.size := by
    intro x hx
    rw [List.mem_filter] at hx
    rw [view_space, view_space]
    exact ⟨by simpa using hx.2, hc.aIn x hx.1, hc.bIn x hx.1, slice_of_aligned _ _ x (ha x hx.1)⟩
  have oa : Ordered (aPart (bs.filter (fun x => x.size ≠ 0))) := hc.aOrd.filter_aPart _
  have ob : Ordered (bPart (bs.filter (fun x => x.size ≠ 0))) := hc.bOrd.filter_bPart _
  generalize bs.filter (fun x => x.size ≠ 0) = ks at hk oa ob
  have e : ks.mapM (mapBlock (noJunkView spaceIsJunk h) (noJunkView spaceIsJunk n)) =
      .ok (ks.map (fun x => (⟨(origPart h x.a x.size).1, (origPart n x.b x.size).1,
        (origPart h x.a x.size).2 - (origPart h x.a x.size).1⟩ : Block))) := by
    rw [mapM_ok_iff, List.map_map]
    apply List.map_congr_left
    intro x hx
    obtain ⟨h0, h1, h2, _⟩ := hk x hx
    rw [mapBlock_ok h n x h0 h1 h2]
    have := (origPart_le h x.a x.size h0 h1).1
    simp only [Function.comp, origPart] at this ⊢
    congr 2
    omega
  refine ⟨_, e, ⟨?_, ?_⟩, ?_, ks.map (fun x => origPart n x.b x.size), ?_, ⟨?_, ?_⟩, ?_, ?_⟩
  · intro r hr
    obtain ⟨y, _, rfl⟩ := List.mem_map.1 hr
    simp
  · unfold aPart
    rw [List.map_map, List.pairwise_map]
    have := oa.next
    unfold aPart at this
    rw [List.pairwise_map] at this
    refine this.imp_of_mem ?_
    intro x y hx hy hxy
    have h1 := origPart_mono h x.a x.size y.a y.size (hk x hx).1 hxy (hk y hy).1 (hk y hy).2.1
    have h2 := origPart_le h x.a x.size (hk x hx).1 (hk x hx).2.1
    simp only [Function.comp]
    omega
  · intro y hy
    obtain ⟨x, hx, rfl⟩ := List.mem_map.1 hy
    have h2 := origPart_le h x.a x.size (hk x hx).1 (hk x hx).2.1
    simp only
    omega
  · simp
  · intro r hr
    obtain ⟨x, hx, rfl⟩ := List.mem_map.1 hr
    have h2 := origPart_le n x.b x.size (hk x hx).1 (hk x hx).2.2.1
    omega
  · rw [List.pairwise_map]
    have := ob.next
    unfold bPart at this
    rw [List.pairwise_map] at this
    refine this.imp_of_mem ?_
    intro x y hx hy hxy
    exact origPart_mono n x.b x.size y.b y.size (hk x hx).1 hxy (hk y hy).1 (hk y hy).2.2.1
  · intro r hr
    obtain ⟨x, hx, rfl⟩ := List.mem_map.1 hr
    exact (origPart_le n x.b x.size (hk x hx).1 (hk x hx).2.2.1).2
  · intro i x r hx hr
    rw [List.getElem?_map, Option.map_eq_some_iff] at hx hr
    obtain ⟨y, hy, rfl⟩ := hx
    obtain ⟨z, hz, rfl⟩ := hr
    rw [hy] at hz
    cases hz
    obtain ⟨h0, h1, h2, h3⟩ := hk y (List.mem_of_getElem? hy)
    refine ⟨rfl, ?_⟩
    simp only
    rw [origPart_text h y.a y.size h0 h1, origPart_text n y.b y.size h0 h2, h3]

/-- Blocks found from a position on. -/
theorem sameText_offset (haystack needle : Str) (start : Nat) (hs : start ≤ haystack.length) (bs : List Block)
    (h : SameText 0 (haystack.drop start) needle bs) : SameText start haystack needle (offsetBlocks start 0 bs) := by
  obtain ⟨ho, hin, parts, hl, hp, hpl, ht⟩ := h
  refine ⟨⟨?_, ?_⟩, ?_, parts, ?_, hp, hpl, ?_⟩
  · intro r hr
    obtain ⟨y, _, rfl⟩ := List.mem_map.1 hr
    simp
  · have := ho.next
    unfold aPart offsetBlocks at *
    rw [List.map_map, List.pairwise_map]
    rw [List.pairwise_map] at this
    refine this.imp ?_
    intro x y hxy
    simp only [Function.comp]
    omega
  · intro y hy
    obtain ⟨x, hx, rfl⟩ := List.mem_map.1 hy
    have := (hin x hx).2
    rw [List.length_drop] at this
    simp only
    omega
  · rw [hl]; simp [offsetBlocks]
  · intro i x r hx hr
    unfold offsetBlocks at hx
    rw [List.getElem?_map, Option.map_eq_some_iff] at hx
    obtain ⟨y, hy, rfl⟩ := hx
    obtain ⟨h1, h2⟩ := ht i y r hy hr
    refine ⟨by simpa using h1, ?_⟩
    rw [← h2]
    unfold slice
    rw [List.drop_drop, Nat.add_comm]

/-- Consistent, aligned blocks of the texts themselves. -/
theorem sameText_of_aligned (a b : Str) (bs : List Block) (hc : Consistent a b bs) (ha : Aligned a b bs) :
    SameText 0 a b bs := by
  refine ⟨hc.aOrd, fun x hx => ⟨Nat.zero_le _, hc.aIn x hx⟩, bPart bs, by simp [bPart], hc.bOrd, ?_, ?_⟩
  · intro r hr
    obtain ⟨x, hx, rfl⟩ := List.mem_map.1 hr
    exact hc.bIn x hx
  · intro i x r hx hr
    unfold bPart at hr
    rw [List.getElem?_map, hx] at hr
    cases hr
    refine ⟨rfl, ?_⟩
    simp only [Nat.add_sub_cancel_left]
    rw [slice_of_aligned a b x (ha x (List.mem_of_getElem? hx))]

end Verif
