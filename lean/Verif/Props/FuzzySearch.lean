/-
C35 (junk-free views), C36 (all matches), C37 (scores of the search), C38 (strided search),
C61 (text of the matches found), C62 (words).
-/
import Verif.Lemmas.FuzzySearch
import Verif.Lemmas.Ok

namespace Verif.Props
open Spec

/-! ## C35 Views -/

/-- The view consists of the characters which are not junk; the recorded indices are the positions of
these characters in the original text, in order. -/
theorem C35_view (isJunk : IsJunk) (s : Str) :
    let v := noJunkView isJunk s
    v.original = s ∧ v.view = nonJunk isJunk s ∧ v.view.length = v.originalIndexAt.length ∧
    (∀ i k : Nat, v.originalIndexAt[i]? = some k → k < s.length ∧ v.view[i]? = s[k]? ∧ isJunk s k = false) ∧
    (∀ k : Nat, k < s.length → isJunk s k = false → k ∈ v.originalIndexAt) ∧
    v.originalIndexAt.Pairwise (fun i j => i < j) := by
  refine ⟨rfl, ?_, ?_, ?_, ?_, ?_⟩
  · rw [noJunkView_view]; rfl
  · rw [noJunkView_view, noJunkView_index, List.length_map, List.length_map]
  · intro i k hk
    rw [noJunkView_index, List.getElem?_map, Option.map_eq_some_iff] at hk
    obtain ⟨⟨c, k'⟩, h1, h2⟩ := hk
    simp only at h2
    subst h2
    have hm := (mem_keptAt isJunk s c k').1 (List.mem_of_getElem? h1)
    obtain ⟨hlt, _⟩ := List.getElem?_eq_some_iff.1 hm.1
    refine ⟨hlt, ?_, hm.2⟩
    rw [noJunkView_view, List.getElem?_map, h1, hm.1]; rfl
  · intro k hk hj
    rw [noJunkView_index]
    exact List.mem_map.2 ⟨(s[k], k), (mem_keptAt isJunk s _ k).2 ⟨List.getElem?_eq_getElem hk, hj⟩, rfl⟩
  · rw [noJunkView_index, List.pairwise_map]
    exact keptAt_pairwise isJunk s

example : (noJunkView spaceIsJunk c!"a b  cd").view = c!"abcd" ∧
    (noJunkView spaceIsJunk c!"a b  cd").originalIndexAt = [0, 2, 5, 6] := by decide +kernel

/-! ## C36 All matches -/

/-- The matches found by searching for all matches are in order and do not overlap, whatever the
matchers return. -/
theorem C36_ordered (env : SearchEnv) (ht : 0 < env.threshold) (haystack needle : Str) :
    (searchAllRanges env haystack needle).1.Pairwise (fun r q => r.2 ≤ q.1) ∧
    (searchAllRanges env haystack needle).1.length ≤ haystack.length := by
  constructor
  · have h := (searchAll_ordered (fun start => fuzzySearch env haystack needle start)
      (fun st m hm => (fuzzySearch_start env ht haystack needle st m hm).2.2.2.1) haystack.length 0).2
    unfold searchAllRanges
    rw [List.pairwise_map]
    exact h
  · have h := (searchAll_spec (fun start => fuzzySearch env haystack needle start) haystack.length 0).1
    unfold searchAllRanges
    rw [List.length_map]
    omega

/-- Each match is the one found from the end of the match before on, and unless a search fails the
iteration ends only at the end of the text or when nothing more is found. -/
theorem C36_exhaustive (env : SearchEnv) (ht : 0 < env.threshold) (haystack needle : Str) :
    let ms := (searchAll (fun start => fuzzySearch env haystack needle start) haystack.length 0).1
    let failed := (searchAll (fun start => fuzzySearch env haystack needle start) haystack.length 0).2
    (∀ i m, ms[i]? = some m → fuzzySearch env haystack needle (startOf 0 ms i) = .ok (some m)) ∧
    (∀ e, failed = some e → fuzzySearch env haystack needle (startOf 0 ms ms.length) = .error e) ∧
    (failed = none → haystack.length ≤ startOf 0 ms ms.length ∨
      fuzzySearch env haystack needle (startOf 0 ms ms.length) = .ok none) := by
  obtain ⟨_, h2, h3, h4⟩ := searchAll_spec (fun start => fuzzySearch env haystack needle start) haystack.length 0
  refine ⟨fun i m hi => (h2 i m hi).1, h3, ?_⟩
  intro hf
  rcases h4 hf with h | h | ⟨n, hn, h⟩
  · exact .inl h
  · exact .inr h
  · exfalso
    obtain ⟨m, hm⟩ : ∃ m, (searchAll (fun start => fuzzySearch env haystack needle start) haystack.length 0).1[n]? =
        some m := ⟨_, List.getElem?_eq_getElem (by omega)⟩
    have hs := (h2 n m hm).1
    have hlt := (fuzzySearch_start env ht haystack needle _ m hs).2.2.2.2
    rw [← hn] at h
    have e : startOf 0 (searchAll (fun start => fuzzySearch env haystack needle start) haystack.length 0).1 (n + 1) =
        m.aRange.2 := by simp [startOf, hm]
    rw [e] at h
    omega

/-! ## C38 Strided search -/

/-- The search terminates: the number of rounds is bounded, and a larger bound does not change the
result. -/
theorem C38_terminates (env : StridedEnv) (hs : 0 < env.stride) (haystack needle : Str) (maxChunks : Int)
    (start : Nat) :
    ∃ r, ∀ fuel, (haystack.length - start) + maxChunks.toNat * (haystack.length + 1) < fuel →
      stridedSearch env haystack fuel maxChunks needle start = some r := by
  obtain ⟨r, hr⟩ := stridedSearch_fuel env haystack hs _ maxChunks needle start (Nat.le_refl _)
  refine ⟨r, ?_⟩
  intro fuel hf
  obtain ⟨k, rfl⟩ := Nat.le.dest (show searchFuel haystack.length maxChunks start ≤ fuel from hf)
  exact stridedSearch_mono_le env haystack _ k maxChunks needle start r hr

/-- With the default window the stride is positive, so that the search always terminates. -/
theorem C38_default_terminates (env : SearchEnv) (haystack needle : Str) :
    (haystack ≠ [] → 0 < (defaultMaxLengthAndStride env.rnd haystack.length needle.length env.threshold).2) ∧
    ∃ r, autoStridedSearch env haystack needle = some r := by
  refine ⟨fun h => default_stride_pos _ _ _ _ (by simpa [List.length_pos_iff] using h), ?_⟩
  unfold autoStridedSearch
  cases hh : haystack with
  | nil =>
    refine ⟨[], ?_⟩
    simp only [searchFuel]
    rw [stridedSearch, if_pos (by simp)]
  | cons c l =>
    have := default_stride_pos env.rnd (c :: l).length needle.length env.threshold (by simp)
    simp only
    apply stridedSearch_fuel
    · simp only; omega
    · exact Nat.le_refl _

/-- The windows: any part of the text which is not longer than the longest admissible match lies
completely in one of the windows, and begins in it early enough to be accepted. -/
theorem C38_coverage (rnd : Rat → Int) (haystackLength needleLength : Nat) (threshold : Rat) (p w : Nat)
    (hin : p + w ≤ haystackLength) (hp : p < haystackLength)
    (hw : (w : Int) ≤ needleLength + rnd ((min haystackLength needleLength : Nat) * (1 - threshold)) ∨
      haystackLength ≤ 1000) :
    let maxLength := (defaultMaxLengthAndStride rnd haystackLength needleLength threshold).1.toNat
    let stride := (defaultMaxLengthAndStride rnd haystackLength needleLength threshold).2.toNat
    ∃ k, k * stride < haystackLength ∧ k * stride ≤ p ∧ p - k * stride ≤ stride ∧ p + w ≤ k * stride + maxLength := by
  intro maxLength stride
  by_cases hl : haystackLength ≤ 1000
  · have e : defaultMaxLengthAndStride rnd haystackLength needleLength threshold =
        ((haystackLength : Int), (haystackLength : Int)) := by
      unfold defaultMaxLengthAndStride; rw [if_pos hl]
    have e1 : maxLength = haystackLength := by simp only [maxLength, e]; omega
    have e2 : stride = haystackLength := by simp only [stride, e]; omega
    refine ⟨0, ?_, ?_, ?_, ?_⟩ <;> rw [Nat.zero_mul] <;> omega
  · have hw' := hw.resolve_right hl
    have hpos := default_stride_pos rnd haystackLength needleLength threshold (by omega)
    have hs : 0 < stride := by simp only [stride]; omega
    have hsum : stride + w ≤ maxLength := by
      have e : defaultMaxLengthAndStride rnd haystackLength needleLength threshold =
          (let maxMatched := (needleLength : Int) + rnd ((min haystackLength needleLength : Nat) * (1 - threshold))
           let maxLength := max ((1000 : Nat) : Int) (maxMatched * 4)
           (maxLength, maxLength - maxMatched)) := by
        unfold defaultMaxLengthAndStride; rw [if_neg hl]
      simp only [stride, maxLength, e]
      generalize rnd _ = d at hw'
      omega
    have h1 : p / stride * stride ≤ p := Nat.div_mul_le_self p stride
    have h2 : p < p / stride * stride + stride := by
      have := Nat.lt_div_mul_add (a := p) hs
      omega
    exact ⟨p / stride, by omega, h1, by omega, by omega⟩

/-- Searching for a single chunk returns the match of the first window whose match is accepted, at its
position in the text, and nothing if there is no such window. -/
theorem C38_first_window (env : StridedEnv) (hs : 0 < env.stride) (haystack needle : Str) :
    (stridedSearch env haystack (searchFuel haystack.length 1 0) 1 needle 0 = some [] ∧
      ∀ k, k * env.stride < haystack.length → ¬ Accepted env haystack needle (k * env.stride)) ∨
    (∃ k, k * env.stride < haystack.length ∧ Accepted env haystack needle (k * env.stride) ∧
      (∀ j, j < k → ¬ Accepted env haystack needle (j * env.stride)) ∧
      stridedSearch env haystack (searchFuel haystack.length 1 0) 1 needle 0 =
        some [moved (k * env.stride) (env.lsm (window env haystack (k * env.stride)) needle)]) := by
  obtain ⟨r, hr⟩ := stridedSearch_fuel env haystack hs _ 1 needle 0 (Nat.le_refl _)
  rcases stridedSearch_single env haystack _ 1 (by omega) needle 0 r hr with ⟨e, h⟩ | ⟨k, h1, h2, h3, e⟩
  · left
    rw [hr, e]
    refine ⟨rfl, ?_⟩
    intro k hk
    have := h k
    rw [Nat.zero_add] at this
    exact this hk
  · right
    rw [Nat.zero_add] at h1 h2 e
    refine ⟨k, h1, h2, ?_, by rw [hr, e]⟩
    intro j hj
    have := h3 j hj
    rw [Nat.zero_add] at this
    exact this

/-- A matcher which finds "ab" in the first part of a text and "cd" in the second part. -/
def exLsm (a b : Str) : List Block :=
  if a = c!"abXc" ∧ b = c!"abcd" then [⟨0, 0, 2⟩, ⟨3, 2, 1⟩]
  else if a = c!"..cd" ∧ b = c!"cd" then [⟨2, 0, 2⟩]
  else []

/-- Disagreement: a match in several chunks reports its first chunk at its position in the window
instead of its position in the text (here "ab" at 4 is reported at 0). -/
theorem C38_chunk_misplaced :
    let env : StridedEnv := ⟨exLsm, fun _ _ => false, 9/10, 4, 4⟩
    stridedSearch env c!"....abXc....cd" (searchFuel 14 2 0) 2 c!"abcd" 0 =
      some [[⟨0, 0, 2⟩], [⟨12, 2, 2⟩]] := by decide +kernel

/-- A matcher which finds "ab" with a gap. -/
def exGapLsm (a b : Str) : List Block := if a = c!"a!b" ∧ b = c!"ab" then [⟨0, 0, 1⟩, ⟨2, 1, 1⟩] else []

/-- Disagreement: a window is accepted by a score computed with the positions in the window but the
text of the whole haystack, so that a match scoring below the threshold can be accepted. -/
theorem C38_score_of_other_text :
    let env : StridedEnv := ⟨exGapLsm, defaultIsJunk asciiClass, 9/10, 4, 4⟩
    stridedSearch env c!"x*xxa!b" (searchFuel 7 1 0) 1 c!"ab" 0 = some [[⟨4, 0, 1⟩, ⟨6, 1, 1⟩]] ∧
    FuzzyResult.bGapRatioFixed ⟨c!"x*xxa!b", c!"ab", [⟨4, 0, 1⟩, ⟨6, 1, 1⟩], defaultIsJunk asciiClass⟩ < 9/10 := by
  decide +kernel

/-! ## C62 Words -/

/-- Splitting into words with their positions: the words follow one another without gaps and make up
the text; each is a single separator or a run of other characters which is not empty. -/
theorem C62_words (sep : List Char) (s : Str) :
    ((splitWithOffset sep s).map Prod.snd).flatten = s ∧
    (∀ (k i : Nat) (w : Str), (splitWithOffset sep s)[k]? = some (i, w) →
      i = (((splitWithOffset sep s).take k).map (fun t => t.2.length)).sum ∧ slice s i w.length = w) ∧
    ∀ t ∈ splitWithOffset sep s,
      (∃ c, t.2 = [c] ∧ c ∈ sep) ∨ (t.2 ≠ [] ∧ ∀ c ∈ t.2, c ∉ sep) := by
  obtain ⟨h1, h2, h3⟩ := splitLoop_spec sep 0 [] s (by simp)
  refine ⟨h2, ?_, ?_⟩
  · intro k i w hk
    have e := contiguous_get 0 _ h1 k i w hk
    rw [Nat.zero_add] at e
    refine ⟨e, ?_⟩
    have := slice_words (splitWithOffset sep s) s h2 k 1
    rw [wordStart_add, Nat.add_sub_cancel_left] at this
    have hd : (splitWithOffset sep s).drop k = (i, w) :: (splitWithOffset sep s).drop (k + 1) := by
      obtain ⟨hlt, e'⟩ := List.getElem?_eq_some_iff.1 hk
      rw [← e']; exact List.drop_eq_getElem_cons hlt
    rw [hd] at this
    change i = wordStart (splitWithOffset sep s) k at e
    rw [e]
    simpa using this
  · intro t ht
    rcases h3 t ht with ⟨c, hc, hm⟩ | ⟨hn, hm⟩
    · exact .inl ⟨c, hc, by simpa using hm⟩
    · exact .inr ⟨hn, fun c hc => by simpa using hm c hc⟩

/-- Matching words: if the word matcher returns consistent blocks of equal words, the blocks of
characters are consistent and pair equal characters. -/
theorem C62_blocks (diff : List Str → List Str → List Block)
    (hd : ∀ a b, Consistent a b (diff a b) ∧ Aligned a b (diff a b)) (a b : Str) :
    ∃ bs, wordBlocks diff a b = .ok bs ∧ Consistent a b bs ∧ Aligned a b bs := by
  have h := hd ((splitWithOffset wordSeparators a).map Prod.snd) ((splitWithOffset wordSeparators b).map Prod.snd)
  exact ⟨_, wordBlocks_ok diff a b h.1,
    wordBlocks_consistent _ _ a b (C62_words _ a).1 (C62_words _ b).1 _ h.1 h.2⟩

example : splitWithOffset wordSeparators c!"a (bc) d" =
    [(0, c!"a"), (1, c!" "), (2, c!"("), (3, c!"bc"), (5, c!")"), (6, c!" "), (7, c!"d")] := by decide +kernel

/-! ## C61 The text found -/

theorem C61_aux (env : SearchEnv) (hg : GoodMatchers env) (hm : env.maxChunks ≤ 1) (haystack needle : Str)
    (start : Nat) (hs : start ≤ haystack.length) :
    ∃ r, fuzzySearchChunks env haystack needle start = .ok r ∧
      ∀ ms, r = some ms → ∃ m, ms = [m] ∧ m.a = haystack ∧ m.b = needle ∧ m.isJunk = env.isJunk ∧
        SameText start haystack needle m.blocks := by
  unfold fuzzySearchChunks
  simp only
  split
  · obtain ⟨bs, e, hc, ha⟩ := C62_blocks env.diff hg.diff (haystack.drop start) needle
    rw [e]
    simp only
    split
    · exact ⟨_, rfl, by intro ms h; cases h⟩
    · refine ⟨_, rfl, ?_⟩
      intro ms h
      cases h
      exact ⟨_, rfl, rfl, rfl, rfl, sameText_offset haystack needle start hs bs (sameText_of_aligned _ _ _ hc ha)⟩
  · obtain ⟨r, hr⟩ := (C38_default_terminates env (noJunkView spaceIsJunk (haystack.drop start)).view
      (noJunkView spaceIsJunk needle).view).2
    rw [hr]
    cases r with
    | nil => exact ⟨_, rfl, by intro ms h; cases h⟩
    | cons c cs =>
      simp only
      unfold autoStridedSearch at hr
      simp only at hr
      rcases stridedSearch_single _ _ _ _ hm _ _ _ hr with ⟨e, _⟩ | ⟨k, hk, _, _, e⟩
      · cases e
      · cases e
        simp only at hk ⊢
        rw [Nat.zero_add] at hk
        simp only [Nat.zero_add]
        have hl := hg.lsm (window ⟨env.lsm, env.isJunk, env.threshold,
          (defaultMaxLengthAndStride env.rnd (noJunkView spaceIsJunk (haystack.drop start)).view.length
            (noJunkView spaceIsJunk needle).view.length env.threshold).1.toNat,
          (defaultMaxLengthAndStride env.rnd (noJunkView spaceIsJunk (haystack.drop start)).view.length
            (noJunkView spaceIsJunk needle).view.length env.threshold).2.toNat⟩
          (noJunkView spaceIsJunk (haystack.drop start)).view
          (k * (defaultMaxLengthAndStride env.rnd (noJunkView spaceIsJunk (haystack.drop start)).view.length
            (noJunkView spaceIsJunk needle).view.length env.threshold).2.toNat)) (noJunkView spaceIsJunk needle).view
        obtain ⟨hc, ha⟩ := aligned_drop hl.1 hl.2 (Nat.le_of_lt hk)
        simp only [view_space] at hc ha hk ⊢
        obtain ⟨bs, e, hst⟩ := mapBlocks_text (haystack.drop start) needle _ hc ha
        simp only [List.mapM_cons, List.mapM_nil]
        rw [e]
        refine ⟨_, rfl, ?_⟩
        intro ms h
        cases h
        exact ⟨_, rfl, rfl, rfl, rfl, sameText_offset haystack needle start hs bs hst⟩

/-- A search for a single chunk does not fail, and the blocks of the match found are in order, lie
after the given position and have, up to white space, the text of parts of the needle. -/
theorem C61_found (env : SearchEnv) (hg : GoodMatchers env) (hm : env.maxChunks ≤ 1) (haystack needle : Str)
    (start : Nat) (hs : start ≤ haystack.length) :
    ∃ r, fuzzySearch env haystack needle start = .ok r ∧
      ∀ m, r = some m → m.a = haystack ∧ m.b = needle ∧ SameText start haystack needle m.blocks := by
  obtain ⟨r, e, h⟩ := C61_aux env hg hm haystack needle start hs
  unfold fuzzySearch
  rw [e]
  cases r with
  | none => exact ⟨_, rfl, by intro m h; cases h⟩
  | some ms =>
    obtain ⟨m, rfl, h1, h2, h3, h4⟩ := h ms rfl
    refine ⟨_, rfl, ?_⟩
    intro m' hm'
    cases hm'
    exact ⟨rfl, rfl, by simpa using h4⟩

/-- So the index ranges of all matches lie within the text, are not empty and the search for all
matches does not fail. -/
theorem C61_all_ranges (env : SearchEnv) (hg : GoodMatchers env) (hm : env.maxChunks ≤ 1) (ht : 0 < env.threshold)
    (haystack needle : Str) :
    (searchAllRanges env haystack needle).2 = none ∧
    ∀ r ∈ (searchAllRanges env haystack needle).1, r.1 < r.2 ∧ r.2 ≤ haystack.length := by
  obtain ⟨h1, h2, h3, h4⟩ := searchAll_spec (fun start => fuzzySearch env haystack needle start) haystack.length 0
  have hrange : ∀ st, st ≤ haystack.length → ∀ m, fuzzySearch env haystack needle st = .ok (some m) →
      m.aRange.1 < m.aRange.2 ∧ m.aRange.2 ≤ haystack.length := by
    intro st hst m hmm
    obtain ⟨_, _, _, h5, h6⟩ := fuzzySearch_start env ht haystack needle st m hmm
    obtain ⟨r, e, h7⟩ := C61_found env hg hm haystack needle st hst
    rw [hmm] at e
    cases e
    obtain ⟨_, _, ho, hin, _⟩ := h7 m rfl
    unfold FuzzyResult.aRange at h5 h6 ⊢
    split
    · next x y hx hy =>
      simp only [hx, hy] at h5 h6
      have hxm : x ∈ m.nonEmpty := List.mem_of_head? hx
      have hym : y ∈ m.nonEmpty := List.mem_of_getLast? hy
      have hb := aRange_bounds m ho (x.a, x.a + x.size) (List.mem_map.2 ⟨x, hxm, rfl⟩)
      have hx0 : x.size ≠ 0 := by simpa using (List.mem_filter.1 hxm).2
      unfold FuzzyResult.aRange at hb
      simp only [hx, hy] at hb
      have := (hin y (List.mem_filter.1 hym).1).2
      simp only
      omega
    · next hno =>
      exfalso
      split at h6
      · next x y hx hy => exact hno x y hx hy
      · simp at h6
  constructor
  · cases hf : (searchAllRanges env haystack needle).2 with
    | none => rfl
    | some e =>
      have he := h3 e hf
      have hst : startOf 0 (searchAll (fun start => fuzzySearch env haystack needle start) haystack.length 0).1
          (searchAll (fun start => fuzzySearch env haystack needle start) haystack.length 0).1.length ≤ haystack.length := by
        cases hl : (searchAll (fun start => fuzzySearch env haystack needle start) haystack.length 0).1.length with
        | zero => simp [startOf]
        | succ n =>
          obtain ⟨m, hm'⟩ : ∃ m, (searchAll (fun start => fuzzySearch env haystack needle start) haystack.length 0).1[n]? =
            some m := ⟨_, List.getElem?_eq_getElem (by omega)⟩
          have := h2 n m hm'
          have := (hrange _ (Nat.le_of_lt this.2) m this.1).2
          simpa [startOf, hm'] using this
      obtain ⟨r, e', _⟩ := C61_found env hg hm haystack needle _ hst
      rw [e'] at he
      cases he
  · intro r hr
    unfold searchAllRanges at hr
    obtain ⟨m, hmem, rfl⟩ := List.mem_map.1 hr
    obtain ⟨i, hi⟩ := List.getElem?_of_mem hmem
    have := h2 i m hi
    exact hrange _ (Nat.le_of_lt this.2) m this.1

/-- A simple matcher: the common prefix. -/
def commonPrefix {α : Type} [DecidableEq α] : List α → List α → Nat
  | x :: a, y :: b => if x = y then commonPrefix a b + 1 else 0
  | _, _ => 0

def prefixMatcher {α : Type} [DecidableEq α] (a b : List α) : List Block := [⟨0, 0, commonPrefix a b⟩]

theorem commonPrefix_spec {α : Type} [DecidableEq α] (a b : List α) :
    commonPrefix a b ≤ a.length ∧ commonPrefix a b ≤ b.length ∧
    ∀ k, k < commonPrefix a b → ∃ c, a[k]? = some c ∧ b[k]? = some c := by
  induction a generalizing b with
  | nil => simp [commonPrefix]
  | cons x a ih =>
    cases b with
    | nil => simp [commonPrefix]
    | cons y b =>
      unfold commonPrefix
      split
      · next e =>
        subst e
        obtain ⟨h1, h2, h3⟩ := ih b
        refine ⟨by simp only [List.length_cons]; omega, by simp only [List.length_cons]; omega, ?_⟩
        intro k hk
        cases k with
        | zero => exact ⟨x, rfl, rfl⟩
        | succ k => exact h3 k (by omega)
      · simp

theorem prefixMatcher_good {α : Type} [DecidableEq α] (a b : List α) :
    Consistent a b (prefixMatcher a b) ∧ Aligned a b (prefixMatcher a b) := by
  obtain ⟨h1, h2, h3⟩ := commonPrefix_spec a b
  refine ⟨⟨⟨?_, by simp [prefixMatcher, aPart]⟩, ⟨?_, by simp [prefixMatcher, bPart]⟩, ?_, ?_⟩, ?_⟩
  · intro r hr; simp [prefixMatcher, aPart] at hr; subst hr; simp
  · intro r hr; simp [prefixMatcher, bPart] at hr; subst hr; simp
  · intro x hx; simp [prefixMatcher] at hx; subst hx; simpa using h1
  · intro x hx; simp [prefixMatcher] at hx; subst hx; simpa using h2
  · intro x hx k hk
    simp [prefixMatcher] at hx
    subst hx
    simpa using h3 k hk

def exSearchEnv : SearchEnv :=
  ⟨prefixMatcher, prefixMatcher, fun _ => 0, defaultIsJunk asciiClass, 4/5, 5, 1⟩

example : GoodMatchers exSearchEnv ∧ exSearchEnv.maxChunks ≤ 1 ∧ 0 < exSearchEnv.threshold ∧
    (searchAllRanges exSearchEnv c!"The cat The cat" c!"Thecat ").1 = [(0, 7), (8, 15)] :=
  ⟨⟨prefixMatcher_good, prefixMatcher_good⟩, by decide, by decide +kernel, by decide +kernel⟩

/-- A window in the middle of the text is accepted, the first one is not. -/
example : let env : StridedEnv := ⟨prefixMatcher, fun _ _ => false, 9/10, 4, 2⟩
    0 < env.stride ∧
    stridedSearch env c!"xxxxabcdxx" (searchFuel 10 1 0) 1 c!"abc" 0 = some [[⟨4, 0, 3⟩]] := by decide +kernel

example : defaultMaxLengthAndStride (fun q => q.floor) 5000 400 (4/5) = (1920, 1440) := by decide +kernel

/-! ## C37 Scores of the search -/

/-- The score by which the search accepts a match lies between 0 and 1 for consistent blocks. -/
theorem C37_search_score (r : FuzzyResult) (h : Consistent r.a r.b r.blocks) :
    0 ≤ r.bGapRatioFixed ∧ r.bGapRatioFixed ≤ 1 := by
  have hb := unmatchedB r h
  have hga := gapsA r h
  unfold FuzzyResult.bGapRatioFixed
  apply ratioTo_bounds
  omega

/-- It is the number of matched characters divided by the length of the second text and the gaps of the
first text, junk not counted. -/
theorem C37_search_score_value (r : FuzzyResult) (h : Consistent r.a r.b r.blocks) :
    r.bGapRatioFixed = r.ratioTo (
      (r.b.length - countIn 0 r.b.length (fun i => r.isJunk r.b i && !covered (bPart r.blocks) i)) +
      countIn r.aRange.1 r.aRange.2 (fun i => !r.isJunk r.a i && !covered (aPart r.blocks) i) : Nat) := by
  have hga := gapsA r h
  have hb := unmatchedB r h
  have oa : Ordered (aPart r.nonEmpty) := h.aOrd.filter_aPart _
  have ob : Ordered (bPart r.nonEmpty) := h.bOrd.filter_bPart _
  have hbd := aRange_bounds r h.aOrd
  have e1 : r.bNonMatchingJunk = countIn 0 r.b.length (fun i => r.isJunk r.b i && !covered (bPart r.blocks) i) := by
    have := sum_invertRanges r.b.length (r.isJunk r.b) r.bBlocks 0 ob (by intros; omega)
    refine this.trans (countIn_congr _ _ _ _ ?_)
    intro i _ _
    rw [coveredB_nonEmpty]
  have e2 : r.aNonMatchingJunk (some r.aRange) =
      countIn r.aRange.1 r.aRange.2 (fun i => r.isJunk r.a i && !covered (aPart r.blocks) i) := by
    have := sum_invertRanges r.aRange.2 (r.isJunk r.a) r.aBlocks r.aRange.1 oa (fun q hq => (hbd q hq).1)
    refine this.trans (countIn_congr _ _ _ _ ?_)
    intro i _ _
    rw [coveredA_nonEmpty]
  have e3 : countIn r.aRange.1 r.aRange.2 (covered (aPart r.blocks)) = r.matchCount := by
    have := countIn_covered r.aBlocks r.aRange.1 r.aRange.2 oa (fun q hq => (hbd q hq).1) (fun q hq => (hbd q hq).2)
    rw [aBlocks_eq, sum_aPart, FuzzyResult.nonEmpty, total_filter, ← matchCount_eq] at this
    rw [← this]
    apply countIn_congr
    intro i _ _
    exact (coveredA_nonEmpty r i).symm
  have e4 := countIn_not r.aRange.1 r.aRange.2 (covered (aPart r.blocks))
  have e5 : countIn r.aRange.1 r.aRange.2 (fun i => !covered (aPart r.blocks) i) =
      countIn r.aRange.1 r.aRange.2 (fun i => r.isJunk r.a i && !covered (aPart r.blocks) i) +
      countIn r.aRange.1 r.aRange.2 (fun i => !r.isJunk r.a i && !covered (aPart r.blocks) i) := by
    unfold countIn
    generalize List.range' r.aRange.1 (r.aRange.2 - r.aRange.1) = l
    induction l with
    | nil => rfl
    | cons i l ih =>
      rw [List.filter_cons, List.filter_cons, List.filter_cons]
      cases r.isJunk r.a i <;> cases covered (aPart r.blocks) i <;> simp <;> omega
  unfold FuzzyResult.bGapRatioFixed
  simp only
  congr 1
  omega

/-- Disagreement: the blocks of a match found by the search are not consistent, because their size is
that of the first text including white space, and so the score of the match can exceed 1. -/
theorem C37_search_score_above_one :
    ∃ m, fuzzySearch exSearchEnv c!"a b c d e f" c!"abcdef" 0 = .ok (some m) ∧ m.bGapRatioFixed = 11/6 := by
  have h : okAnd (fuzzySearch exSearchEnv c!"a b c d e f" c!"abcdef" 0)
      (fun r => (r.map FuzzyResult.bGapRatioFixed) = some (11/6)) = true := by decide +kernel
  obtain ⟨r, e, h2⟩ := exists_of_okAnd h
  cases r with
  | none => cases h2
  | some m => exact ⟨m, e, Option.some.inj h2⟩

end Verif.Props
