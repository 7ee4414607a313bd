/-
The sub tags read from what was written for a document.
-/
import Verif.Lemmas.WriteTrace

namespace Verif
open Spec

/-! ### Looking ahead -/

theorem directHere_stops (cc : CharClass) (j n : Nat) (r : List TEv) :
    directHere cc n (List.replicate j .stop ++ r) = (decide (j ≤ n) && directHere cc (n - j) r) := by
  induction j generalizing n with
  | zero => simp
  | succ j ih =>
    rw [List.replicate_succ, List.cons_append]
    cases n with
    | zero => simp [directHere]
    | succ n => rw [directHere, ih]; simp

theorem directHere_starts (cc : CharClass) (cs : List Str) (n : Nat) (r : List TEv) :
    directHere cc n (cs.map TEv.start ++ r) = directHere cc (n + cs.length) r := by
  induction cs generalizing n with
  | nil => rfl
  | cons c cs ih =>
    rw [List.map_cons, List.cons_append, directHere_start, ih, List.length_cons]
    congr 1; omega

/-- Text found in the rest directly in an open element belongs to a text token with the path of the element. -/
def Ahead (cc : CharClass) (mapping : Dict Str) (toks : List Tok) (x : List Str) (rest : List TEv) : Prop :=
  ∀ e, 0 < e → e ≤ x.length → directHere cc (x.length - e) rest = true →
    ∃ v ∈ toks, blank cc v = false ∧ tokenPath mapping v = x.take e

theorem ahead_moves {cc : CharClass} {mapping : Dict Str} {toks : List Tok} {x q : List Str} {rest : List TEv}
    (h : Ahead cc mapping toks q rest) : Ahead cc mapping toks x (moves x q ++ rest) := by
  intro e he hx hd
  have hl := (commonPath_prefix_left x q).length_le
  have hr := (commonPath_prefix_right x q).length_le
  rw [moves, List.append_assoc, directHere_stops, directHere_starts, Bool.and_eq_true, decide_eq_true_eq,
    List.length_drop] at hd
  obtain ⟨h1, h2⟩ := hd
  have hec : e ≤ (commonPath x q).length := by omega
  obtain ⟨v, v1, v2, v3⟩ := h e he (by omega) (by
    have : x.length - e - (x.length - (commonPath x q).length) + (q.length - (commonPath x q).length) = q.length - e := by omega
    rw [← this]; exact h2)
  refine ⟨v, v1, v2, ?_⟩
  rw [v3]
  obtain ⟨a, ha⟩ := commonPath_prefix_left x q
  obtain ⟨b, hb⟩ := commonPath_prefix_right x q
  conv => rhs; rw [← ha]
  conv => lhs; rw [← hb]
  rw [List.take_append_of_le_length hec, List.take_append_of_le_length hec]

theorem ahead_blank {cc : CharClass} {mapping : Dict Str} {toks : List Tok} {x : List Str} {rest : List TEv} {s : Str}
    (hs : s.all cc.isSpace = true) (h : Ahead cc mapping toks x rest) : Ahead cc mapping toks x (chEvs s ++ rest) := by
  intro e he hx hd
  refine h e he hx ?_
  rw [directHere_chEvs] at hd
  have : s.any (fun c => !cc.isSpace c) = false := by
    rw [List.any_eq_false]
    intro c hc
    simp [List.all_eq_true.1 hs c hc]
  simpa [this] using hd

theorem ahead_text {cc : CharClass} {mapping : Dict Str} {toks : List Tok} {t : Tok} {rest : List TEv}
    (ht : t ∈ toks) (hb : blank cc t = false) (h : Ahead cc mapping toks (tokenPath mapping t) rest) :
    Ahead cc mapping toks (tokenPath mapping t) (chEvs t.text ++ rest) := by
  intro e he hx hd
  rw [directHere_chEvs, Bool.or_eq_true] at hd
  rcases hd with hd | hd
  · simp only [Bool.and_eq_true, decide_eq_true_eq] at hd
    exact ⟨t, ht, hb, (List.take_of_length_le (by omega)).symm⟩
  · exact h e he hx hd

theorem flatten_blank {cc : CharClass} {pend : List Str} (h : ∀ s ∈ pend, s.all cc.isSpace = true) :
    pend.flatten.all cc.isSpace = true := by
  rw [List.all_eq_true]
  intro c hc
  obtain ⟨s, hs, hcs⟩ := List.mem_flatten.1 hc
  exact List.all_eq_true.1 (h s hs) c hcs

theorem blank_snoc {cc : CharClass} {pend : List Str} {t : Tok} (h : ∀ s ∈ pend, s.all cc.isSpace = true)
    (ht : blank cc t = true) : ∀ s ∈ pend ++ [t.text], s.all cc.isSpace = true := by
  intro s hs
  rcases List.mem_append.1 hs with hs | hs
  · exact h s hs
  · rw [List.mem_singleton.1 hs]; exact ht

theorem ahead_doc {cc : CharClass} {mapping : Dict Str} (toks : List Tok) {p pend : List Str} {resets : List (Option Str)}
    {seq : List (Option Tok)} {T : List TEv} (h : DocTrace cc mapping p pend resets seq T)
    (hp : ∀ s ∈ pend, s.all cc.isSpace = true) (ht : ∀ t, some t ∈ seq → t ∈ toks) : Ahead cc mapping toks p T := by
  induction h with
  | done p pend resets =>
    intro e he hx hd
    rw [directHere_stops] at hd
    simp only [Bool.and_eq_true, decide_eq_true_eq] at hd
    omega
  | brk p pend resets r T _ ih =>
    intro e he hx hd
    rw [directHere_start, directHere] at hd
    exact ih hp (fun t h => ht t (by simp [h])) e he hx hd
  | space p pend resets t r T hb _ ih =>
    exact ih (blank_snoc hp hb) (fun t h => ht t (by simp [h]))
  | text p pend resets t r T p1 hb hpre _ ih =>
    exact ahead_moves (ahead_moves (ahead_blank (flatten_blank hp) (ahead_moves (ahead_text (ht t (by simp)) hb
      (ih (by simp) (fun t h => ht t (by simp [h])))))))

/-! ### Moving -/

/-- The depth of the main element with the path `m`, if it is open at the path `x`. -/
def mainAt (m x : List Str) : Option Nat := if m ≠ [] ∧ m.length ≤ x.length then some m.length else none

/-- A sub tag needs an element inside of the main element. -/
def SubOk (st : LSt) : Prop := st.sub ≠ none → ∃ d, st.main = some d ∧ d < st.path.length

theorem scan_stops (cc : CharClass) (rp : List Str) (m : List Str) (n : Nat) (x : List Str) (sub : SubSt) (rest : List TEv)
    (hn : n ≤ x.length) (hok : SubOk ⟨x, mainAt m x, sub⟩) :
    scanSubs cc rp ⟨x, mainAt m x, sub⟩ (List.replicate n .stop ++ rest) =
      scanSubs cc rp ⟨x.take (x.length - n), mainAt m (x.take (x.length - n)), if n = 0 then sub else none⟩ rest := by
  induction n generalizing x sub with
  | zero => simp
  | succ n ih =>
    rw [List.replicate_succ, List.cons_append, scanSubs]
    have hx : 0 < x.length := by omega
    have hex : LSt.exit ⟨x, mainAt m x, sub⟩ = ⟨x.dropLast, mainAt m x.dropLast, none⟩ := by
      unfold LSt.exit
      simp only [LSt.mk.injEq, true_and]
      constructor
      · unfold mainAt
        rw [List.length_dropLast]
        by_cases h0 : m = []
        · simp [h0]
        · by_cases h1 : m.length ≤ x.length
          · have e1 : (if m ≠ [] ∧ m.length ≤ x.length then some m.length else none) = some m.length := if_pos ⟨h0, h1⟩
            rw [e1]
            by_cases h2 : m.length = x.length
            · rw [if_pos (by rw [h2])]
              exact (if_neg (fun h => by omega)).symm
            · rw [if_neg (fun h => h2 (Option.some.inj h))]
              exact (if_pos ⟨h0, by omega⟩).symm
          · have e1 : (if m ≠ [] ∧ m.length ≤ x.length then some m.length else none) = none := if_neg (fun h => h1 h.2)
            have e2 : (if m ≠ [] ∧ m.length ≤ x.length - 1 then some m.length else none) = none := if_neg (fun h => h1 (by omega))
            rw [e1, e2]
            simp
      · cases hs : sub with
        | none => simp
        | some v =>
          obtain ⟨d, h1, h2⟩ := hok (by simp [hs])
          simp only at h1 h2
          rw [h1]
          simp [h2]
    rw [hex, ih _ _ (by rw [List.length_dropLast]; omega) (fun h => absurd rfl h)]
    have : x.dropLast.take (x.dropLast.length - n) = x.take (x.length - (n + 1)) := by
      rw [List.dropLast_eq_take, List.take_take, List.length_take]
      congr 1; omega
    rw [this]
    simp

/-- Whether the element at depth `k` of the path `q` is a tagged one, seen from behind its start. -/
def tagB (cc : CharClass) (rp : List Str) (q : List Str) (rest : List TEv) (k : Nat) : Bool :=
  directHere cc (q.length - k) rest || rp.contains (joinWith c!"/" (q.take k))

theorem scan_starts (cc : CharClass) (rp : List Str) (m ks c : List Str) (sub : SubSt) (rest : List TEv)
    (hm : m = [] → ks = [])
    (h1 : ∀ k, c.length < k → k ≤ (c ++ ks).length → k < m.length → tagB cc rp (c ++ ks) rest k = false)
    (h2 : c.length < m.length → m.length ≤ (c ++ ks).length → tagB cc rp (c ++ ks) rest m.length = true)
    (h3 : m.length < (c ++ ks).length → ks ≠ [] → tagB cc rp (c ++ ks) rest (c ++ ks).length = true) :
    ∃ sub', scanSubs cc rp ⟨c, mainAt m c, sub⟩ (ks.map TEv.start ++ rest) = scanSubs cc rp ⟨c ++ ks, mainAt m (c ++ ks), sub'⟩ rest ∧
      ((c ++ ks).length ≤ m.length → sub' = sub) ∧ (ks = [] → sub' = sub) ∧
      (m.length < (c ++ ks).length → ks ≠ [] → sub' = some (joinWith c!"/" (c ++ ks), true)) := by
  induction ks generalizing c sub with
  | nil => exact ⟨sub, by simp, fun _ => rfl, fun _ => rfl, fun _ h => absurd rfl h⟩
  | cons a ks ih =>
    have hm0 : m ≠ [] := fun h => by cases hm h
    have hq : c ++ a :: ks = (c ++ [a]) ++ ks := by simp
    have hlen : (c ++ a :: ks).length = c.length + 1 + ks.length := by simp; omega
    have htag : taggedAt cc rp (c ++ [a]) (ks.map TEv.start ++ rest) = tagB cc rp (c ++ a :: ks) rest (c.length + 1) := by
      unfold taggedAt tagB
      rw [directHere_starts, hlen, hq, List.take_append_of_le_length (by simp), List.take_of_length_le (by simp)]
      congr 2
      omega
    rw [List.map_cons, List.cons_append, scanSubs]
    simp only
    rw [htag]
    have hen : ∃ sub1, LSt.enter ⟨c, mainAt m c, sub⟩ a (tagB cc rp (c ++ a :: ks) rest (c.length + 1)) =
        ⟨c ++ [a], mainAt m (c ++ [a]), sub1⟩ ∧ (c.length + 1 ≤ m.length → sub1 = sub) ∧
        (m.length < c.length + 1 → tagB cc rp (c ++ a :: ks) rest (c.length + 1) = true →
          sub1 = some (joinWith c!"/" (c ++ [a]), true)) := by
      unfold LSt.enter mainAt
      rcases Nat.lt_trichotomy (c.length + 1) m.length with hk | hk | hk
      · rw [h1 (c.length + 1) (by omega) (by omega) hk]
        refine ⟨sub, ?_, fun _ => rfl, fun h => by omega⟩
        rw [if_neg (by simp), if_neg (by omega), if_neg (by simp; omega)]
      · have ht := h2 (by omega) (by omega)
        rw [← hk] at ht
        rw [ht]
        refine ⟨sub, ?_, fun _ => rfl, fun h => by omega⟩
        rw [if_pos rfl, if_neg (by omega), if_pos ⟨hm0, by simp; omega⟩, hk]
      · by_cases ht : tagB cc rp (c ++ a :: ks) rest (c.length + 1) = true
        · refine ⟨some (joinWith c!"/" (c ++ [a]), true), ?_, fun h => by omega, fun _ _ => rfl⟩
          rw [ht, if_pos rfl, if_pos ⟨hm0, by omega⟩, if_pos ⟨hm0, by simp; omega⟩]
        · refine ⟨sub, ?_, fun h => by omega, fun _ h => absurd h ht⟩
          rw [if_neg ht, if_pos ⟨hm0, by omega⟩, if_pos ⟨hm0, by simp; omega⟩]
    obtain ⟨sub1, e1, e2, e3⟩ := hen
    rw [e1]
    obtain ⟨sub2, f1, f2, f3, f4⟩ := ih (c ++ [a]) sub1 (fun h => absurd h hm0)
      (fun k hk => by rw [← hq]; exact h1 k (by simp at hk; omega))
      (fun hk => by rw [← hq]; exact h2 (by simp at hk; omega))
      (fun hk hks => by rw [← hq]; exact h3 (by rw [hq]; exact hk) (by simp))
    rw [hq]
    refine ⟨sub2, f1, fun h => ?_, fun h => (by cases h), fun h _ => ?_⟩
    · rw [f2 h, e2 (by simp at h; omega)]
    · by_cases hks : ks = []
      · subst hks
        have h3' := h3 (by rw [hq]; exact h) (by simp)
        rw [show (c ++ [a]).length = c.length + 1 by simp] at h3'
        rw [f3 rfl, e3 (by simpa using h) h3']
        simp
      · exact f4 h hks

/-- The main element of the token the current path belongs to is that of the token to be written, as far as the two
paths agree. -/
def SameMain (mu ru mt rt : List Str) : Prop := ∀ c, c <+: ru → c <+: rt → mainAt mu c = mainAt mt c

theorem mainAt_some {m x : List Str} {d : Nat} (h : mainAt m x = some d) : m ≠ [] ∧ m.length ≤ x.length ∧ d = m.length := by
  unfold mainAt at h
  split at h
  · next h1 => cases h; exact ⟨h1.1, h1.2, rfl⟩
  · cases h

theorem scan_moves (cc : CharClass) (rp : List Str) (mu ru mt rt : List Str) (hag : SameMain mu ru mt rt)
    (hrt : mt = [] → rt = []) (x q : List Str) (main : Option Nat) (sub : SubSt) (rest : List TEv)
    (hx : (x <+: ru ∧ main = mainAt mu x) ∨ (x <+: rt ∧ main = mainAt mt x)) (hq : q <+: rt)
    (hok : SubOk ⟨x, main, sub⟩)
    (h1 : ∀ k, (commonPath x q).length < k → k ≤ q.length → k < mt.length → tagB cc rp q rest k = false)
    (h2 : (commonPath x q).length < mt.length → mt.length ≤ q.length → tagB cc rp q rest mt.length = true)
    (h3 : mt.length < q.length → commonPath x q ≠ q → tagB cc rp q rest q.length = true) :
    ∃ sub', scanSubs cc rp ⟨x, main, sub⟩ (moves x q ++ rest) = scanSubs cc rp ⟨q, mainAt mt q, sub'⟩ rest ∧
      SubOk ⟨q, mainAt mt q, sub'⟩ ∧
      (q.length ≤ mt.length → sub' = none ∨ (sub' = sub ∧ x <+: q)) ∧
      (mt.length < q.length → commonPath x q ≠ q → sub' = some (joinWith c!"/" q, true)) ∧
      (q <+: x → sub' = if q = x then sub else none) := by
  have hcx := commonPath_prefix_left x q
  have hcq := commonPath_prefix_right x q
  have hl := hcx.length_le
  have hr := hcq.length_le
  have hctake : x.take (x.length - (x.length - (commonPath x q).length)) = commonPath x q := by
    rw [show x.length - (x.length - (commonPath x q).length) = (commonPath x q).length by omega]
    exact (List.prefix_iff_eq_take.1 hcx).symm
  have hqe : commonPath x q ++ q.drop (commonPath x q).length = q := List.prefix_iff_eq_append.1 hcq
  -- the ends
  have hstop : scanSubs cc rp ⟨x, main, sub⟩ (moves x q ++ rest) =
      scanSubs cc rp ⟨commonPath x q, mainAt mt (commonPath x q), if x.length - (commonPath x q).length = 0 then sub else none⟩
        ((q.drop (commonPath x q).length).map TEv.start ++ rest) := by
    rw [moves, List.append_assoc]
    rcases hx with ⟨hx, rfl⟩ | ⟨hx, rfl⟩
    · rw [scan_stops cc rp mu _ x sub _ (by omega) hok, hctake, hag _ (hcx.trans hx) (hcq.trans hq)]
    · rw [scan_stops cc rp mt _ x sub _ (by omega) hok, hctake]
  rw [hstop]
  generalize hs0 : (if x.length - (commonPath x q).length = 0 then sub else none) = sub0
  obtain ⟨sub', f1, f2, f3, f4⟩ := scan_starts cc rp mt (q.drop (commonPath x q).length) (commonPath x q) sub0 rest
    (fun h => by
      have : q = [] := List.prefix_nil.1 (hrt h ▸ hq)
      rw [this]; simp)
    (by rw [hqe]; exact h1) (by rw [hqe]; exact h2)
    (by
      rw [hqe]
      intro h4 h5
      refine h3 h4 (fun h6 => h5 ?_)
      rw [h6]; simp)
  rw [hqe] at f1 f2 f4
  have hsub0 : sub0 = none ∨ (sub0 = sub ∧ x = commonPath x q) := by
    rw [← hs0]
    split
    · exact .inr ⟨rfl, (hcx.eq_of_length (by omega)).symm⟩
    · exact .inl rfl
  have hshort : q.length ≤ mt.length → sub' = none ∨ (sub' = sub ∧ x <+: q) := by
    intro h
    rcases hsub0 with h0 | ⟨h0, hxc⟩
    · exact .inl (by rw [f2 h, h0])
    · exact .inr ⟨by rw [f2 h, h0], hxc ▸ hcq⟩
  have hne : commonPath x q ≠ q → q.drop (commonPath x q).length ≠ [] := by
    intro h h0
    rw [h0, List.append_nil] at hqe
    exact h hqe
  have hback : q <+: x → sub' = if q = x then sub else none := by
    intro h
    have hcq' : commonPath x q = q := hcq.eq_of_length (Nat.le_antisymm hr (by
      exact (prefix_commonPath h (List.prefix_refl q)).length_le))
    rw [f3 (by rw [hcq']; simp), ← hs0, hcq']
    by_cases he : q = x
    · rw [if_pos (by rw [he]; omega), if_pos he]
    · rw [if_neg (fun h0 => he (h.eq_of_length (by have := h.length_le; omega))), if_neg he]
  -- where the sub tag comes from
  have hkeep : ∀ s, sub = s → s ≠ none → x <+: q → ∃ d, mainAt mt q = some d ∧ d < x.length := by
    intro s hs hne hxq
    obtain ⟨d, g1, g2⟩ := hok (by simpa [hs] using hne)
    simp only at g1 g2
    have : mainAt mt x = some d := by
      rcases hx with ⟨hx, hm⟩ | ⟨_, hm⟩
      · rw [← hag x hx (hxq.trans hq), ← hm, g1]
      · rw [← hm, g1]
    obtain ⟨k1, k2, k3⟩ := mainAt_some this
    refine ⟨d, ?_, g2⟩
    unfold mainAt
    rw [if_pos ⟨k1, Nat.le_trans k2 hxq.length_le⟩, k3]
  refine ⟨sub', f1, ?_, hshort, fun h h' => f4 h (hne h'), hback⟩
  intro hs
  simp only at hs ⊢
  by_cases hlen : q.length ≤ mt.length
  · rcases hshort hlen with h | ⟨h, hxq⟩
    · exact absurd h hs
    · obtain ⟨d, g1, g2⟩ := hkeep sub rfl (h ▸ hs) hxq
      exact ⟨d, g1, Nat.lt_of_lt_of_le g2 hxq.length_le⟩
  · have hm0 : mt ≠ [] := by
      intro h
      have : q = [] := List.prefix_nil.1 (hrt h ▸ hq)
      rw [this] at hlen
      simp at hlen
    exact ⟨mt.length, by unfold mainAt; rw [if_pos ⟨hm0, by omega⟩], by omega⟩

end Verif
