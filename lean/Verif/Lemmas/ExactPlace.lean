/-
Lemmas about where a text which occurs literally is found.
-/
import Verif.Spec.ExactPlace
import Verif.Lemmas.ExactMatch
import Verif.Props.MatchingRanges

namespace Verif
open Spec

theorem slice_zero_length (s : Str) : slice s 0 s.length = s := by
  unfold slice
  rw [List.drop_zero, List.take_length]

theorem wordBlocks_place (diff : List Str → List Str → List Block)
    (hd : ∀ a b, Consistent a b (diff a b) ∧ Aligned a b (diff a b)) (a b : Str) (q : Nat)
    (h : wordBlocks diff a b = .ok [⟨q, 0, b.length⟩]) : q + b.length ≤ a.length ∧ slice a q b.length = b := by
  obtain ⟨bs, e, hc, hal⟩ := Props.C62_blocks diff hd a b
  rw [h] at e
  cases e
  refine ⟨hc.aIn _ List.mem_cons_self, ?_⟩
  have := slice_of_aligned a b ⟨q, 0, b.length⟩ (hal _ List.mem_cons_self)
  simp only [] at this
  rw [this, slice_zero_length]

/-- A short text of one window has nothing but literal occurrences. -/
theorem onlyLiteral_short (env : SearchEnv) (text value : Str) (hl : (noSpace text).length ≤ 1000)
    (ho : noSpace value <:+: noSpace text) : OnlyLiteral env text value := by
  unfold OnlyLiteral
  simp only []
  intro k hk _
  have e : defaultMaxLengthAndStride env.rnd (noSpace text).length (noSpace value).length env.threshold =
      (((noSpace text).length : Int), ((noSpace text).length : Int)) := by
    unfold defaultMaxLengthAndStride
    rw [if_pos hl]
  rw [e] at hk ⊢
  simp only [Int.toNat_natCast] at hk ⊢
  have hk0 : k = 0 := by
    cases k with
    | zero => rfl
    | succ k => rw [Nat.add_mul, Nat.one_mul] at hk; omega
  subst hk0
  rw [Nat.zero_mul]
  unfold window
  simp only []
  rw [slice_zero_length]
  exact ho

/-- A value which occurs in a text of one window is accepted in the first one. -/
theorem acceptedFirst_short (env : SearchEnv) (hf : FindsLiteral env.lsm) (ht : env.threshold ≤ 1) (text value : Str)
    (hl : (noSpace text).length ≤ 1000) (hne : noSpace value ≠ []) (ho : noSpace value <:+: noSpace text) :
    AcceptedFirst env text value := by
  unfold AcceptedFirst
  simp only []
  have e : defaultMaxLengthAndStride env.rnd (noSpace text).length (noSpace value).length env.threshold =
      (((noSpace text).length : Int), ((noSpace text).length : Int)) := by
    unfold defaultMaxLengthAndStride
    rw [if_pos hl]
  rw [e]
  simp only [Int.toNat_natCast]
  obtain ⟨q, zs, el, hz, hq⟩ := hf _ _ hne ho
  have h2 := take_drop_length hq hne
  have hl0 : (noSpace value).length ≠ 0 := by simpa using hne
  refine ⟨⟨q, 0, (noSpace value).length⟩, zs, ?_, by simp only []; omega, by simp only []; omega, ?_⟩
  · unfold window
    simp only []
    rw [slice_zero_length, el]
  · rw [exact_score _ _ q zs _ hne hz]
    exact ht

theorem place_in_slice (s : Str) (i n q : Nat) (b : Str) (hne : b ≠ []) (hq : ((slice s i n).drop q).take b.length = b) :
    i + q + b.length ≤ s.length ∧ slice s (i + q) b.length = b := by
  have hq2 := take_drop_length hq hne
  have hwl : (slice s i n).length ≤ n := by unfold slice; rw [List.length_take]; omega
  have hs := slice_slice s i n q b.length (by omega)
  rw [show slice (slice s i n) q b.length = ((slice s i n).drop q).take b.length from rfl, hq] at hs
  exact ⟨take_drop_length hs.symm hne, hs.symm⟩

theorem stridedSearch_first (env : StridedEnv) (haystack : Str) (fuel : Nat) (maxChunks : Int) (needle : Str)
    (h0 : 0 < haystack.length) (ha : Accepted env haystack needle 0) (r : List (List Block))
    (h : stridedSearch env haystack fuel maxChunks needle 0 = some r) :
    r = [moved 0 (env.lsm (window env haystack 0) needle)] := by
  cases fuel with
  | zero => cases h
  | succ fuel =>
    rcases stridedSearch_cases env haystack fuel maxChunks needle 0 with h1 | h1 | h1 | h1
    · omega
    · exact absurd ha h1.2.1
    · exact absurd ha h1.2.1
    · rw [h1.2.2] at h
      exact (Option.some.inj h).symm

/-- The blocks found in windows are those of an occurrence. -/
theorem autoStrided_place (env : SearchEnv) (hl : FindsLiteral env.lsm) (ht : env.threshold ≤ 1)
    (hr : ∀ q, 0 ≤ q → 0 ≤ env.rnd q) (text value : Str) (hne : noSpace value ≠ []) (ho : noSpace value <:+: noSpace text)
    (hu : OnlyLiteral env text value) (hm : env.maxChunks ≤ 1 ∨ AcceptedFirst env text value) :
    ∃ p zs, autoStridedSearch env (noSpace text) (noSpace value) = some [⟨p, 0, (noSpace value).length⟩ :: zs] ∧
      (∀ z ∈ zs, z.size = 0) ∧ p + (noSpace value).length ≤ (noSpace text).length ∧
      slice (noSpace text) p (noSpace value).length = noSpace value := by
  have key : ∃ r k, autoStridedSearch env (noSpace text) (noSpace value) = some r ∧
      let sizes := defaultMaxLengthAndStride env.rnd (noSpace text).length (noSpace value).length env.threshold
      let senv : StridedEnv := ⟨env.lsm, env.isJunk, env.threshold, sizes.1.toNat, sizes.2.toNat⟩
      k * senv.stride < (noSpace text).length ∧ Accepted senv (noSpace text) (noSpace value) (k * senv.stride) ∧
      r = [moved (k * senv.stride) (env.lsm (window senv (noSpace text) (k * senv.stride)) (noSpace value))] := by
    rcases hm with hm | hf
    · obtain ⟨c, cs, hres⟩ := autoStrided_exact env hl ht hr _ _ hne ho
      have hres' := hres
      unfold autoStridedSearch at hres'
      simp only [] at hres'
      rcases stridedSearch_single _ (noSpace text) _ env.maxChunks hm (noSpace value) 0 _ hres' with ⟨e, _⟩ | ⟨k, hk, ha, _, e⟩
      · cases e
      · rw [Nat.zero_add] at hk ha e
        exact ⟨_, k, hres, hk, ha, e⟩
    · obtain ⟨r, hres⟩ := (Props.C38_default_terminates env (noSpace text) (noSpace value)).2
      have hres' := hres
      unfold autoStridedSearch at hres'
      simp only [] at hres'
      have h0 : 0 < (noSpace text).length := by
        have := ho.length_le
        have : (noSpace value).length ≠ 0 := by simpa using hne
        omega
      have := stridedSearch_first _ _ _ _ _ h0 hf _ hres'
      refine ⟨r, 0, hres, ?_⟩
      simp only [Nat.zero_mul]
      exact ⟨h0, hf, this⟩
  obtain ⟨r, k, hres, hk, ha, e⟩ := key
  · have hin := hu k hk ha
    obtain ⟨q, zs, el, hz, hq⟩ := hl _ _ hne hin
    rw [hres, e]
    unfold moved
    simp only [] at el ⊢
    rw [el, List.map_cons]
    refine ⟨_, _, rfl, ?_, ?_⟩
    · intro z hz'
      obtain ⟨y, hy, rfl⟩ := List.mem_map.1 hz'
      exact hz y hy
    · exact place_in_slice (noSpace text) _ _ q (noSpace value) hne hq

/-- A value all of whose occurrences begin within the first 750 characters is accepted in the first window. -/
theorem acceptedFirst_early (env : SearchEnv) (hf : FindsLiteral env.lsm) (ht : env.threshold ≤ 1)
    (hr : ∀ q, 0 ≤ q → 0 ≤ env.rnd q) (text value : Str) (hne : noSpace value ≠ []) (ho : noSpace value <:+: noSpace text)
    (hp : ∀ p, slice (noSpace text) p (noSpace value).length = noSpace value → p ≤ 750) : AcceptedFirst env text value := by
  by_cases hl : (noSpace text).length ≤ 1000
  · exact acceptedFirst_short env hf ht text value hl hne ho
  · unfold AcceptedFirst
    simp only []
    have hr0 := hr ((min (noSpace text).length (noSpace value).length : Nat) * (1 - env.threshold))
      (Rat.mul_nonneg (by exact_mod_cast Nat.zero_le _) ((Rat.le_iff_sub_nonneg env.threshold 1).1 ht))
    have hsize : ∃ ml st : Nat, (defaultMaxLengthAndStride env.rnd (noSpace text).length (noSpace value).length env.threshold).1.toNat = ml ∧
        (defaultMaxLengthAndStride env.rnd (noSpace text).length (noSpace value).length env.threshold).2.toNat = st ∧
        750 ≤ st ∧ 750 + (noSpace value).length ≤ ml := by
      refine ⟨_, _, rfl, rfl, ?_⟩
      unfold defaultMaxLengthAndStride
      rw [if_neg hl]
      simp only []
      generalize env.rnd _ = q at hr0 ⊢
      omega
    obtain ⟨ml, st, e1, e2, h1, h2⟩ := hsize
    rw [e1, e2]
    obtain ⟨p, hpo⟩ := take_drop_of_infix ho
    have hp1 := hp p hpo
    have hin : noSpace value <:+: slice (noSpace text) 0 ml := by
      apply infix_of_take_drop (p := p)
      have := slice_slice (noSpace text) 0 ml p (noSpace value).length (by omega)
      unfold slice at this ⊢
      rw [this, Nat.zero_add]
      exact hpo
    obtain ⟨q, zs, el, hz, hq⟩ := hf _ _ hne hin
    have hq2 := (place_in_slice (noSpace text) 0 ml q (noSpace value) hne hq).2
    rw [Nat.zero_add] at hq2
    have hq3 := hp q hq2
    have hl0 : (noSpace value).length ≠ 0 := by simpa using hne
    refine ⟨⟨q, 0, (noSpace value).length⟩, zs, el, by simp only []; omega, by simp only []; omega, ?_⟩
    rw [exact_score _ _ q zs _ hne hz]
    exact ht

/-- The range found for a text which occurs literally. -/
theorem rangeChunks_place (env : SearchEnv) (hg : GoodMatchers env) (hl : FindsLiteral env.lsm)
    (hd : FindsLiteral env.diff) (ht : env.threshold ≤ 1)
    (hr : ∀ q, 0 ≤ q → 0 ≤ env.rnd q) (haystack needle : Str) :
    (needle ≠ [] → min haystack.length needle.length < env.exactWordMatchThreshold →
      wordsOf wordSeparators needle <:+: wordsOf wordSeparators haystack →
      ∃ q, searchRangeChunks env haystack needle 0 = .ok (some [(q, q + needle.length)]) ∧
        q + needle.length ≤ haystack.length ∧ slice haystack q needle.length = needle) ∧
    (noSpace needle ≠ [] → ¬ min haystack.length needle.length < env.exactWordMatchThreshold →
      noSpace needle <:+: noSpace haystack → OnlyLiteral env haystack needle →
      env.maxChunks ≤ 1 ∨ AcceptedFirst env haystack needle →
      ∃ r : Nat × Nat, searchRangeChunks env haystack needle 0 = .ok (some [r]) ∧ r.1 < r.2 ∧ r.2 ≤ haystack.length ∧
        noSpace (slice haystack r.1 (r.2 - r.1)) = noSpace needle) := by
  constructor
  · intro hne h1 h2
    obtain ⟨q, e⟩ := wordBlocks_exact env.diff hg.diff hd haystack needle hne h2
    refine ⟨q, ?_, wordBlocks_place env.diff hg.diff haystack needle q e⟩
    have hs := exact_score haystack needle q [] env.isJunk hne (by intro z hz; cases hz)
    have hl0 : needle.length ≠ 0 := by simpa using hne
    unfold searchRangeChunks fuzzySearchChunks
    simp only [List.drop_zero]
    rw [if_pos h1, e]
    simp only []
    rw [show offsetBlocks 0 0 [⟨q, 0, needle.length⟩] = [⟨q, 0, needle.length⟩] from rfl, hs, if_neg (Rat.not_lt.2 ht)]
    simp only [List.map_cons, List.map_nil]
    unfold FuzzyResult.aRange FuzzyResult.nonEmpty
    simp only []
    rw [List.filter_cons_of_pos (by simpa using hne)]
    rfl
  · intro hne h1 h2 hu hm
    obtain ⟨p, zs, e, hz, hp, hs⟩ := autoStrided_place env hl ht hr haystack needle hne h2 hu hm
    have hl0 : (noSpace needle).length ≠ 0 := by simpa using hne
    have hmb := mapBlock_ok haystack needle ⟨p, 0, (noSpace needle).length⟩ hl0
      (by rw [view_space]; exact hp) (by rw [view_space]; simp)
    have hlast : p + (noSpace needle).length - 1 = p + ((noSpace needle).length - 1) := by omega
    have hns := noSpace_slice haystack p ((noSpace needle).length - 1) _ _
      (origAt_get spaceIsJunk haystack p (by rw [view_space]; omega))
      (origAt_get spaceIsJunk haystack (p + ((noSpace needle).length - 1)) (by rw [view_space]; omega))
    have hin := origAt_in spaceIsJunk haystack (p + ((noSpace needle).length - 1)) (by rw [view_space]; omega)
    simp only [] at hmb
    rw [hlast] at hmb
    generalize origAt spaceIsJunk haystack p = a at hmb hns
    generalize origAt spaceIsJunk haystack (p + ((noSpace needle).length - 1)) = b at hmb hns hin
    generalize origAt spaceIsJunk needle 0 = c at hmb
    refine ⟨(a, a + (b - a + 1)), ?_, by simp only []; omega, by simp only []; omega, ?_⟩
    · unfold searchRangeChunks fuzzySearchChunks
      simp only [List.drop_zero]
      rw [if_neg h1, view_space, view_space, e]
      simp only [List.mapM_cons, List.mapM_nil]
      rw [List.filter_cons_of_pos (by simpa using hne), filter_zero_blocks zs hz]
      simp only [List.mapM_cons, List.mapM_nil]
      rw [hmb]
      simp only [bind, Except.bind, pure, Except.pure, List.map_cons, List.map_nil]
      rw [show offsetBlocks 0 0 [⟨a, c, b - a + 1⟩] = [⟨a, c, b - a + 1⟩] from rfl]
      unfold FuzzyResult.aRange FuzzyResult.nonEmpty
      simp only []
      rw [List.filter_cons_of_pos (by simp)]
      rfl
    · simp only []
      rw [show a + (b - a + 1) - a = b - a + 1 by omega, hns.2]
      rw [show (noSpace needle).length - 1 + 1 = (noSpace needle).length by omega, hs]

theorem noSpace_newlines (s : Str) : noSpace (s.map (fun c => if c = '\n' then ' ' else c)) = noSpace s := by
  induction s with
  | nil => rfl
  | cons c s ih =>
    unfold noSpace at ih ⊢
    rw [List.map_cons, List.filter_cons, List.filter_cons, ih]
    by_cases h : c = '\n'
    · subst h; simp
    · rw [if_neg h]

theorem slice_map (f : Char → Char) (s : Str) (i n : Nat) : slice (s.map f) i n = (slice s i n).map f := by
  unfold slice
  rw [List.map_take, List.map_drop]

end Verif
