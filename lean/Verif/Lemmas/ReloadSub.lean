/-
The sub tags of a document that is saved and loaded again.
-/
import Verif.Lemmas.ScanTrace
import Verif.Lemmas.SaveAgain
import Verif.Spec.ReloadSub

namespace Verif
open Spec

/-- The path belongs to a text token, or it is that of the container. -/
def Owned (cc : CharClass) (mapping : Dict Str) (toks : List Tok) (m r : List Str) : Prop :=
  (m = [] ∧ r = []) ∨ ∃ u ∈ toks, blank cc u = false ∧ m = mainPath mapping u ∧ r = tokenPath mapping u

theorem prefix_total {a b c : List Str} (ha : a <+: c) (hb : b <+: c) : a <+: b ∨ b <+: a :=
  List.prefix_or_prefix_of_prefix ha hb

theorem sameMain_of_distinct (cc : CharClass) (mapping : Dict Str) (toks : List Tok)
    (hd : ∀ t ∈ toks, blank cc t = false → Distinct cc mapping toks t) (mu ru : List Str) (ho : Owned cc mapping toks mu ru)
    (t : Tok) (ht : t ∈ toks) (htb : blank cc t = false) : SameMain mu ru (mainPath mapping t) (tokenPath mapping t) := by
  intro c hcu hct
  rcases ho with ⟨rfl, rfl⟩ | ⟨u, hu, hub, rfl, rfl⟩
  · rw [List.prefix_nil.1 hcu]
    unfold mainAt
    rw [if_neg (fun h => h.1 rfl), if_neg]
    rintro ⟨h1, h2⟩
    exact h1 (List.length_eq_zero_iff.1 (by simpa using h2))
  · have hmu := tokenPath_eq mapping u
    have hmt := tokenPath_eq mapping t
    unfold mainAt
    by_cases h1 : mainPath mapping u ≠ [] ∧ (mainPath mapping u).length ≤ c.length
    · have hc1 : mainPath mapping u <+: c := by
        rcases prefix_total hmu hcu with h | h
        · exact h
        · rw [h.eq_of_length (Nat.le_antisymm h.length_le h1.2)]; exact List.prefix_refl _
      have hc2 := hc1.trans hct
      have : mainPath mapping u = mainPath mapping t := by
        rcases prefix_total hc2 hmt with h | h
        · exact mains_apart cc mapping toks hd u t hu hub ht htb h1.1 h
        · by_cases h0 : mainPath mapping t = []
          · have := (hd t ht htb).main h0
            rw [this] at hc2
            exact absurd (List.prefix_nil.1 hc2) h1.1
          · exact (mains_apart cc mapping toks hd t u ht htb hu hub h0 h).symm
      rw [this]
    · rw [if_neg h1, if_neg]
      rintro ⟨h2, h3⟩
      have hc1 : mainPath mapping t <+: c := by
        rcases prefix_total hmt hct with h | h
        · exact h
        · rw [h.eq_of_length (Nat.le_antisymm h.length_le h3)]; exact List.prefix_refl _
      have hc2 := hc1.trans hcu
      apply h1
      have : mainPath mapping u = mainPath mapping t := by
        rcases prefix_total hc2 hmu with h | h
        · exact (mains_apart cc mapping toks hd t u ht htb hu hub h2 h).symm
        · by_cases h0 : mainPath mapping u = []
          · have := (hd u hu hub).main h0
            rw [this] at hc2
            exact absurd (List.prefix_nil.1 hc2) h2
          · exact mains_apart cc mapping toks hd u t hu hub ht htb h0 h
      rw [this]
      exact ⟨h2, h3⟩

/-! ### One text token -/

theorem tagB_outer (cc : CharClass) (mapping : Dict Str) (toks : List Tok) (t : Tok) (hd : Distinct cc mapping toks t)
    (q : List Str) (rest : List TEv) (hq : q <+: tokenPath mapping t) (ha : Ahead cc mapping toks q rest) (k : Nat) (h0 : 0 < k)
    (h1 : k ≤ q.length) (h2 : k < (mainPath mapping t).length) : tagB cc (mapping.map (·.2)) q rest k = false := by
  have he : q.take k = (mainPath mapping t).take k := by
    obtain ⟨a, ha⟩ := hq
    obtain ⟨b, hb⟩ := tokenPath_eq mapping t
    have h3 : (tokenPath mapping t).take k = q.take k := by rw [← ha, List.take_append_of_le_length h1]
    have h4 : (tokenPath mapping t).take k = (mainPath mapping t).take k := by rw [← hb, List.take_append_of_le_length (by omega)]
    rw [← h3, h4]
  obtain ⟨g1, g2⟩ := hd.outermost k h0 h2
  unfold tagB
  rw [he, Bool.or_eq_false_iff]
  constructor
  · refine Bool.eq_false_iff.2 (fun h => ?_)
    obtain ⟨v, v1, v2, v3⟩ := ha k h0 h1 h
    exact g2 v v1 v2 (by rw [v3, he])
  · refine Bool.eq_false_iff.2 (fun h => g1 ?_)
    exact List.contains_iff_mem.1 h

theorem directHere_token (cc : CharClass) (t : Tok) (hb : blank cc t = false) (T : List TEv) :
    directHere cc 0 (chEvs t.text ++ T) = true := by
  rw [directHere_chEvs]
  unfold blank at hb
  obtain ⟨c, hc, h⟩ := List.all_eq_false.1 hb
  have : t.text.any (fun c => !cc.isSpace c) = true := List.any_eq_true.2 ⟨c, hc, by simpa using h⟩
  simp [this]

theorem commonPath_of_prefix {x q : List Str} (h : q <+: x) : commonPath x q = q :=
  (commonPath_prefix_right x q).eq_of_length (Nat.le_antisymm (commonPath_prefix_right x q).length_le
    (prefix_commonPath h (List.prefix_refl q)).length_le)

/-- The sub element a text token is read back from. -/
def readSub (mapping : Dict Str) (prev : List Str) (sub : SubSt) (begun : List (Option Str)) (t : Tok) : SubSt :=
  if (tokenPath mapping t).length ≤ (mainPath mapping t).length then none
  else if startsElement mapping prev begun t then some (joinWith c!"/" (tokenPath mapping t), true)
  else if tokenPath mapping t = prev then sub
  else none

theorem readSub_value (mapping : Dict Str) (prev : List Str) (sub : SubSt) (begun : List (Option Str)) (t : Tok) :
    (readSub mapping prev sub begun t).map (fun x => x.1) =
      if (tokenPath mapping t).length ≤ (mainPath mapping t).length then none
      else if startsElement mapping prev begun t then some (joinWith c!"/" (tokenPath mapping t))
      else if tokenPath mapping t = prev then sub.map (fun x => x.1)
      else none := by
  unfold readSub
  split
  · rfl
  · split
    · rfl
    · split <;> rfl

theorem readSub_fresh (mapping : Dict Str) (prev : List Str) (sub : SubSt) (haged : sub.age = sub) (begun : List (Option Str))
    (t : Tok) : (readSub mapping prev sub begun t).any (fun x => x.2) =
      decide ((mainPath mapping t).length < (tokenPath mapping t).length ∧ startsElement mapping prev begun t) := by
  have h0 : sub.any (fun x => x.2) = false := by
    rw [← haged]; cases sub <;> rfl
  unfold readSub
  by_cases h1 : (tokenPath mapping t).length ≤ (mainPath mapping t).length
  · rw [if_pos h1, decide_eq_false (fun h => by omega)]; rfl
  · rw [if_neg h1]
    by_cases h2 : startsElement mapping prev begun t
    · rw [if_pos h2, decide_eq_true ⟨by omega, h2⟩]; rfl
    · rw [if_neg h2, decide_eq_false (fun h => h2 h.2)]
      split
      · exact h0
      · rfl

theorem agedChars_labels (s : SubSt) (cs : Str) :
    (agedChars s cs).map subMark = entityLabels (s.map (fun x => x.1)) (s.any (fun x => x.2)) cs := by
  cases cs with
  | nil => rfl
  | cons c cs =>
    rw [agedChars_cons]
    cases s <;> simp [entityLabels, subMark, SubSt.age]

theorem filter_subMark (cc : CharClass) (l : List (Char × SubSt)) :
    (l.filter (fun x => !cc.isSpace x.1)).map subMark = (l.map subMark).filter (fun x => !cc.isSpace x.1) := by
  rw [List.filter_map]; rfl

theorem age_value (s : SubSt) : s.age.map (fun x => x.1) = s.map (fun x => x.1) := by cases s <;> rfl

theorem scan_token (cc : CharClass) (mapping : Dict Str) (toks : List Tok)
    (hd : ∀ t ∈ toks, blank cc t = false → Distinct cc mapping toks t) (mu ru : List Str) (ho : Owned cc mapping toks mu ru)
    (sub : SubSt) (haged : sub.age = sub) (hok : SubOk ⟨ru, mainAt mu ru, sub⟩) (t : Tok) (ht : t ∈ toks) (htb : blank cc t = false)
    (pend : List Str) (hpend : ∀ s ∈ pend, s.all cc.isSpace = true) (begun : List (Option Str)) (p1 : List Str)
    (hpre : PreMove mapping ru begun t p1) (T : List TEv) (hT : Ahead cc mapping toks (tokenPath mapping t) T) :
    ∃ w : SubSt, scanSubs cc (mapping.map (·.2)) ⟨ru, mainAt mu ru, sub⟩
        (moves ru p1 ++ (moves p1 (if pend = [] then p1 else commonPath p1 (tokenPath mapping t)) ++ (chEvs pend.flatten ++
          (moves (if pend = [] then p1 else commonPath p1 (tokenPath mapping t)) (tokenPath mapping t) ++ (chEvs t.text ++ T))))) =
      pend.flatten.map (fun c => (c, w)) ++ (agedChars (readSub mapping ru sub begun t) t.text ++
        scanSubs cc (mapping.map (·.2))
          ⟨tokenPath mapping t, mainAt (mainPath mapping t) (tokenPath mapping t), (readSub mapping ru sub begun t).age⟩ T) ∧
      SubOk ⟨tokenPath mapping t, mainAt (mainPath mapping t) (tokenPath mapping t), (readSub mapping ru sub begun t).age⟩ := by
  have hdt := hd t ht htb
  have hag := sameMain_of_distinct cc mapping toks hd mu ru ho t ht htb
  have hMR := tokenPath_eq mapping t
  have hMl := hMR.length_le
  have a3 : Ahead cc mapping toks (tokenPath mapping t) (chEvs t.text ++ T) := ahead_text ht htb hT
  generalize hA3 : chEvs t.text ++ T = A3 at a3
  generalize hp2 : (if pend = [] then p1 else commonPath p1 (tokenPath mapping t)) = p2
  have a2 : Ahead cc mapping toks p2 (chEvs pend.flatten ++ (moves p2 (tokenPath mapping t) ++ A3)) :=
    ahead_blank (flatten_blank hpend) (ahead_moves a3)
  generalize hA2 : chEvs pend.flatten ++ (moves p2 (tokenPath mapping t) ++ A3) = A2 at a2
  have a1 : Ahead cc mapping toks p1 (moves p1 p2 ++ A2) := ahead_moves a2
  generalize hA1 : moves p1 p2 ++ A2 = A1 at a1
  -- the first move
  have s1 : ∃ m1 sub1, scanSubs cc (mapping.map (·.2)) ⟨ru, mainAt mu ru, sub⟩ (moves ru p1 ++ A1) =
        scanSubs cc (mapping.map (·.2)) ⟨p1, m1, sub1⟩ A1 ∧ SubOk ⟨p1, m1, sub1⟩ ∧
      ((p1 <+: ru ∧ m1 = mainAt mu p1) ∨ (p1 <+: tokenPath mapping t ∧ m1 = mainAt (mainPath mapping t) p1)) ∧
      (sub1 = none ∨ (sub1 = sub ∧ ru <+: p1)) ∧ (p1 = ru → sub1 = sub) := by
    have gen : p1 <+: tokenPath mapping t → (p1 = (mainPath mapping t).dropLast ∨ p1 <+: ru) → ∃ m1 sub1,
        scanSubs cc (mapping.map (·.2)) ⟨ru, mainAt mu ru, sub⟩ (moves ru p1 ++ A1) =
          scanSubs cc (mapping.map (·.2)) ⟨p1, m1, sub1⟩ A1 ∧ SubOk ⟨p1, m1, sub1⟩ ∧
        ((p1 <+: ru ∧ m1 = mainAt mu p1) ∨ (p1 <+: tokenPath mapping t ∧ m1 = mainAt (mainPath mapping t) p1)) ∧
        (sub1 = none ∨ (sub1 = sub ∧ ru <+: p1)) ∧ (p1 = ru → sub1 = sub) := by
      intro hR hc
      obtain ⟨sub1, f1, f2, f3, f4, f5⟩ := scan_moves cc (mapping.map (·.2)) mu ru _ _ hag hdt.main ru p1 (mainAt mu ru) sub A1
        (.inl ⟨List.prefix_refl _, rfl⟩) hR hok
        (fun k h1 h2 h3 => tagB_outer cc mapping toks t hdt p1 A1 hR a1 k (by omega) h2 h3)
        (fun h1 h2 => by
          exfalso
          rcases hc with hc | hc
          · rw [hc, List.length_dropLast] at h2; omega
          · rw [commonPath_of_prefix hc] at h1; omega)
        (fun h1 h2 => by
          exfalso
          rcases hc with hc | hc
          · rw [hc, List.length_dropLast] at h1; omega
          · exact h2 (commonPath_of_prefix hc))
      refine ⟨_, sub1, f1, f2, .inr ⟨hR, rfl⟩, ?_, ?_⟩
      · rcases hc with hc | hc
        · exact f3 (by rw [hc, List.length_dropLast]; omega)
        · rw [f5 hc]
          split
          · next h => exact .inr ⟨rfl, h ▸ List.prefix_refl _⟩
          · exact .inl rfl
      · intro h
        rw [f5 (h ▸ List.prefix_refl _), if_pos h]
    rcases hpre with ⟨_, rfl⟩ | ⟨_, _, rfl⟩ | ⟨_, _, _, rfl⟩ | ⟨_, _, _, rfl⟩
    · exact gen ((List.dropLast_prefix _).trans hMR) (.inl rfl)
    · exact gen List.nil_prefix (.inr List.nil_prefix)
    · refine gen ((commonPath_prefix_right _ _).trans ((List.dropLast_prefix _).trans ?_)) (.inr (commonPath_prefix_left _ _))
      by_cases hh : hasSub mapping t
      · rw [if_pos hh]; unfold tokenPath; rw [if_pos hh]; exact List.prefix_refl _
      · rw [if_neg hh]; exact List.nil_prefix
    · rw [moves_self]
      exact ⟨_, sub, rfl, hok, .inl ⟨List.prefix_refl _, rfl⟩, .inr ⟨rfl, List.prefix_refl _⟩, fun _ => rfl⟩
  obtain ⟨m1, sub1, e1, ok1, x1, n1, k1⟩ := s1
  -- the second move
  have s2 : ∃ m2 sub2, scanSubs cc (mapping.map (·.2)) ⟨p1, m1, sub1⟩ A1 =
        scanSubs cc (mapping.map (·.2)) ⟨p2, m2, sub2⟩ A2 ∧ SubOk ⟨p2, m2, sub2⟩ ∧
      ((p2 <+: ru ∧ m2 = mainAt mu p2) ∨ (p2 <+: tokenPath mapping t ∧ m2 = mainAt (mainPath mapping t) p2)) ∧
      (sub2 = none ∨ (sub2 = sub ∧ ru <+: p2)) ∧ sub2 = (if p2 = p1 then sub1 else none) := by
    rw [← hA1]
    by_cases hpe : pend = []
    · rw [if_pos hpe] at hp2
      subst hp2
      rw [moves_self]
      exact ⟨m1, sub1, rfl, ok1, x1, n1, (if_pos rfl).symm⟩
    · rw [if_neg hpe] at hp2
      have hpr : p2 <+: tokenPath mapping t := hp2 ▸ commonPath_prefix_right _ _
      have hpl : p2 <+: p1 := hp2 ▸ commonPath_prefix_left _ _
      obtain ⟨sub2, f1, f2, f3, f4, f5⟩ := scan_moves cc (mapping.map (·.2)) mu ru _ _ hag hdt.main p1 p2 m1 sub1 A2 x1 hpr ok1
        (fun k h1 h2 _ => by rw [commonPath_of_prefix hpl] at h1; omega)
        (fun h1 h2 => by rw [commonPath_of_prefix hpl] at h1; omega)
        (fun _ h2 => absurd (commonPath_of_prefix hpl) h2)
      refine ⟨_, sub2, f1, f2, .inr ⟨hpr, rfl⟩, ?_, f5 hpl⟩
      rw [f5 hpl]
      split
      · next h => rw [h]; exact n1
      · exact .inl rfl
  obtain ⟨m2, sub2, e2, ok2, x2, n2, k2⟩ := s2
  -- the third move
  obtain ⟨sub3, f1, f2, f3, f4, f5⟩ := scan_moves cc (mapping.map (·.2)) mu ru _ _ hag hdt.main p2 (tokenPath mapping t) m2 sub2 A3
    x2 (List.prefix_refl _) ok2
    (fun k h1 h2 h3 => tagB_outer cc mapping toks t hdt _ A3 (List.prefix_refl _) a3 k (by omega) h2 h3)
    (fun h1 h2 => by
      unfold tagB
      rw [Bool.or_eq_true]
      rcases hdt.configured with h | h
      · refine .inr (List.contains_iff_mem.2 ?_)
        rw [← List.prefix_iff_eq_take.1 hMR]
        exact h
      · refine .inl ?_
        rw [h, Nat.sub_self, ← hA3]
        exact directHere_token cc t htb T)
    (fun _ _ => by
      unfold tagB
      rw [Bool.or_eq_true]
      refine .inl ?_
      rw [Nat.sub_self, ← hA3]
      exact directHere_token cc t htb T)
  have hp2le : p2.length ≤ p1.length := by
    rw [← hp2]
    split
    · exact Nat.le_refl _
    · exact (commonPath_prefix_left _ _).length_le
  have hsub3 : sub3 = readSub mapping ru sub begun t := by
    unfold readSub
    by_cases h1 : (tokenPath mapping t).length ≤ (mainPath mapping t).length
    · rw [if_pos h1]
      refine Classical.byContradiction fun hne => ?_
      rcases f3 h1 with h | ⟨h, hx⟩
      · exact hne h
      · rcases n2 with h' | ⟨h', hx'⟩
        · exact hne (by rw [h, h'])
        · have hs : sub ≠ none := fun h0 => hne (by rw [h, h', h0])
          obtain ⟨d, g1, g2⟩ := hok hs
          simp only at g1 g2
          rw [hag ru (List.prefix_refl _) (hx'.trans hx)] at g1
          have := (mainAt_some g1).2.2
          have := (hx'.trans hx).length_le
          omega
    · rw [if_neg h1]
      have hcases : (startsElement mapping ru begun t ∧ commonPath p2 (tokenPath mapping t) ≠ tokenPath mapping t) ∨
          (¬ startsElement mapping ru begun t ∧ p1 = ru ∧ tokenPath mapping t <+: ru) := by
        have short : p1.length < (tokenPath mapping t).length → commonPath p2 (tokenPath mapping t) ≠ tokenPath mapping t := by
          intro h h2
          have := (commonPath_prefix_left p2 (tokenPath mapping t)).length_le
          rw [h2] at this
          omega
        unfold startsElement
        rw [beginsEntity_iff, beginsSub_iff, ← stripTagPrefix_eq_tagValue]
        rcases hpre with ⟨g1, g2⟩ | ⟨g1, g2, g3⟩ | ⟨g1, g2, g3, g4⟩ | ⟨g1, g2, g3, g4⟩
        · refine .inl ⟨.inl g1, short ?_⟩
          rw [g2, List.length_dropLast]; omega
        · refine .inl ⟨.inr (.inr (.inl g2)), short ?_⟩
          rw [g3]; simp; omega
        · refine .inl ⟨.inr (.inl g3), short ?_⟩
          by_cases hh : hasSub mapping t
          · rw [if_pos hh] at g4
            have : p1.length ≤ (subPath mapping t).dropLast.length := g4 ▸ (commonPath_prefix_right _ _).length_le
            rw [List.length_dropLast] at this
            have he : tokenPath mapping t = subPath mapping t := if_pos hh
            rw [← he] at this
            omega
          · have he : tokenPath mapping t = mainPath mapping t := if_neg hh
            rw [he] at h1
            omega
        · by_cases hpx : tokenPath mapping t <+: ru
          · exact .inr ⟨fun h => h.elim g1 (fun h => h.elim g3 (fun h => h.elim g2 (fun h => h hpx))), g4, hpx⟩
          · refine .inl ⟨.inr (.inr (.inr hpx)), fun h => hpx ?_⟩
            have h5 : tokenPath mapping t <+: p2 := h ▸ commonPath_prefix_left _ _
            have h6 : p2 <+: p1 := by
              rw [← hp2]
              split
              · exact List.prefix_refl _
              · exact commonPath_prefix_left _ _
            exact g4 ▸ h5.trans h6
      rcases hcases with ⟨h2, h3⟩ | ⟨h2, h3, h4⟩
      · rw [if_pos h2]
        exact f4 (by omega) h3
      · rw [if_neg h2]
        subst h3
        have hp2' : p2 = p1 ∨ p2 = tokenPath mapping t := by
          rw [← hp2]
          split
          · exact .inl rfl
          · exact .inr (commonPath_of_prefix h4)
        have hRp2 : tokenPath mapping t <+: p2 := by
          rcases hp2' with h | h
          · rw [h]; exact h4
          · rw [h]; exact List.prefix_refl _
        rw [f5 hRp2, k2, k1 rfl]
        by_cases h5 : tokenPath mapping t = p1
        · rw [if_pos h5]
          rcases hp2' with h | h
          · rw [if_pos (by rw [h, h5]), if_pos h]
          · rw [if_pos h.symm, if_pos (by rw [h, h5])]
        · rw [if_neg h5]
          rcases hp2' with h | h
          · rw [if_neg (by rw [h]; exact h5)]
          · rw [if_pos h.symm, if_neg (by rw [h]; exact h5)]
  rw [← hsub3]
  have haged2 : SubSt.age sub2 = sub2 := by
    rcases n2 with h | ⟨h, _⟩ <;> rw [h]
    · rfl
    · exact haged
  have hne : t.text ≠ [] := by
    intro h
    unfold blank at htb
    rw [h] at htb
    cases htb
  refine ⟨sub2, ?_, fun h => f2 (fun h0 => h ?_)⟩
  · rw [e1, e2, ← hA2, scanSubs_chEvs, agedChars_aged _ haged2, ageBy_aged _ haged2, f1, ← hA3, scanSubs_chEvs,
      ageBy_ne_nil _ _ hne]
  · simp only at h0 ⊢
    rw [h0]; rfl

/-! ### The whole document -/

theorem scan_doc (cc : CharClass) (mapping : Dict Str) (toks : List Tok)
    (hd : ∀ t ∈ toks, blank cc t = false → Distinct cc mapping toks t) {p pend : List Str} {begun : List (Option Str)}
    {seq : List (Option Tok)} {T : List TEv} (h : DocTrace cc mapping p pend begun seq T)
    (hpend : ∀ s ∈ pend, s.all cc.isSpace = true) (ht : ∀ t, some t ∈ seq → t ∈ toks) (m : List Str)
    (ho : Owned cc mapping toks m p) (sub : SubSt) (haged : sub.age = sub) (hok : SubOk ⟨p, mainAt m p, sub⟩) :
    ((scanSubs cc (mapping.map (·.2)) ⟨p, mainAt m p, sub⟩ T).filter (fun x => !cc.isSpace x.1)).map subMark =
      subMarksReadBack cc mapping p (sub.map (fun x => x.1)) begun seq := by
  have hblank : ∀ (s : Str) (w : SubSt), s.all cc.isSpace = true →
      (s.map (fun c => (c, w))).filter (fun x => !cc.isSpace x.1) = [] := by
    intro s w hs
    rw [List.filter_eq_nil_iff]
    intro x hx
    obtain ⟨c, hc, rfl⟩ := List.mem_map.1 hx
    simp [List.all_eq_true.1 hs c hc]
  induction h generalizing m sub with
  | done p pend begun =>
    rw [scan_stops cc _ m p.length p sub _ (Nat.le_refl _) hok]
    have := scanSubs_chEvs cc (mapping.map (·.2)) (p.take (p.length - p.length)) (mainAt m (p.take (p.length - p.length)))
      (if p.length = 0 then sub else none) pend.flatten []
    rw [List.append_nil] at this
    have hag : SubSt.age (if p.length = 0 then sub else none) = if p.length = 0 then sub else none := by
      split
      · exact haged
      · rfl
    rw [this, agedChars_aged _ hag, List.filter_append, hblank _ _ (flatten_blank hpend)]
    rfl
  | brk p pend begun r T hT ih =>
    rw [scanSubs, scanSubs, subMarksReadBack]
    have hlb : ∀ b, LSt.exit (LSt.enter ⟨p, mainAt m p, sub⟩ c!"lb" b) = ⟨p, mainAt m p, none⟩ := by
      intro b
      cases hm : mainAt m p with
      | none =>
        have hs : sub = none := Classical.byContradiction fun h => by
          obtain ⟨d, g1, _⟩ := hok h
          simp only at g1
          rw [hm] at g1
          cases g1
        subst hs
        cases b <;> simp [LSt.enter, LSt.exit]
      | some d =>
        have hle : d ≤ p.length := by
          obtain ⟨_, h2, h3⟩ := mainAt_some hm
          omega
        have hne : d ≠ p.length + 1 := by omega
        cases b <;> simp [LSt.enter, LSt.exit, hne, Nat.lt_succ_of_le hle]
    simp only
    rw [hlb]
    exact ih hpend (fun t h => ht t (by simp [h])) m ho none rfl (fun h => absurd rfl h)
  | space p pend begun t r T hb hT ih =>
    rw [subMarksReadBack, if_pos hb, ih (blank_snoc hpend hb) (fun t h => ht t (by simp [h])) m ho sub haged hok]
    congr 1
    by_cases hbe : beginsEntity t = true
    · rw [if_pos hbe, if_pos ((split_begin_iff t).2 hbe), ← stripTagPrefix_eq_tagValue]; rfl
    · rw [if_neg hbe, if_neg (fun h => hbe ((split_begin_iff t).1 h))]
  | text p pend begun t r T p1 hb hpre hT ih =>
    have htm := ht t (by simp)
    have ht' : ∀ t, some t ∈ r → t ∈ toks := fun t h => ht t (by simp [h])
    obtain ⟨w, g1, g2⟩ := scan_token cc mapping toks hd m p ho sub haged hok t htm hb pend hpend begun p1 hpre T
      (ahead_doc toks hT (by simp) ht')
    rw [g1, List.filter_append, List.filter_append, hblank _ _ (flatten_blank hpend), List.nil_append, List.map_append,
      ih (by simp) ht' _ (.inr ⟨t, htm, hb, rfl, rfl⟩) _ (age_age _) g2, subMarksReadBack, if_neg (by simp [hb])]
    simp only
    rw [← readSub_value, ← readSub_fresh mapping p sub haged begun t, ← agedChars_labels, ← filter_subMark]
    rw [age_value]

/-! ### The sub tags of loaded tokens -/

theorem loaded_sub_form (cc : CharClass) (rp : List Str) (e : Elem) (lines : List (List Tok))
    (hn : allBelow (fun tag _ => tag ≠ []) e)
    (h : extractContainers cc rp [e] = .ok lines) (t : Tok) (ht : t ∈ lines.flatten) :
    t.attrib.get? c!"level2_tag" = none ∨ ∃ p, t.attrib.get? c!"level2_tag" = some (c!"b-" ++ p) ∨
      t.attrib.get? c!"level2_tag" = some (c!"i-" ++ p) := by
  have h1 := Props.C59_sub_tags cc rp [e] (fun e' he => by rw [List.mem_singleton.1 he]; exact hn) lines h
  have hm : (t.text, t.attrib.get? c!"level2_tag") ∈ lines.flatten.map (fun t => (t.text, t.attrib.get? c!"level2_tag")) :=
    List.mem_map.2 ⟨t, ht, rfl⟩
  rw [h1] at hm
  obtain ⟨s, _, hm⟩ := List.mem_flatMap.1 hm
  obtain ⟨v, nodes⟩ := s
  generalize t.attrib.get? c!"level2_tag" = x at hm
  cases v with
  | none =>
    left
    simp only [segmentTokens] at hm
    obtain ⟨y, _, hy⟩ := List.mem_map.1 hm
    exact (congrArg Prod.snd hy).symm
  | some p =>
    right
    refine ⟨p, ?_⟩
    simp only [segmentTokens] at hm
    generalize nodes.flatMap (cutAt (tokenBoundary cc)) = ts at hm
    cases ts with
    | nil => cases hm
    | cons y ys =>
      rcases List.mem_cons.1 hm with hm | hm
      · exact .inl (congrArg Prod.snd hm)
      · obtain ⟨z, _, hz⟩ := List.mem_map.1 hm
        exact .inr (congrArg Prod.snd hz).symm

theorem subValue_renamed (m : Dict Str) (t u : Tok)
    (h1 : t.attrib.get? c!"level2_tag" = none)
    (h2 : t.attrib.get? c!"level2_preserved_tag" = (u.attrib.get? c!"level2_tag").map (renameTag (tagOfPath m)))
    (h3 : u.attrib.get? c!"level2_tag" = none ∨ ∃ p, u.attrib.get? c!"level2_tag" = some (c!"b-" ++ p) ∨
      u.attrib.get? c!"level2_tag" = some (c!"i-" ++ p)) :
    subValue t = (stripTagPrefix (u.attrib.get? c!"level2_tag")).bind (subName m) := by
  have hf : fullSubTag t = (u.attrib.get? c!"level2_tag").map (renameTag (tagOfPath m)) := by
    unfold fullSubTag
    rw [h1, h2]; rfl
  have hnm : ∀ p, subName m p = normTag (tagOfPath m p) := fun _ => rfl
  rw [subValue_eq, hf]
  rcases h3 with h3 | ⟨p, h3 | h3⟩
  · rw [h3]; rfl
  · rw [h3, show stripTagPrefix (some (c!"b-" ++ p)) = some p from stripTagPrefix_b p]
    show (stripTagPrefix (some (withPrefix c!"b-" (tagOfPath m p)))).bind normTag = normTag (tagOfPath m p)
    unfold withPrefix
    by_cases hp : tagOfPath m p = []
    · rw [if_pos hp, hp]; rfl
    · rw [if_neg hp, show stripTagPrefix (some (c!"b-" ++ tagOfPath m p)) = some (tagOfPath m p) from stripTagPrefix_b _]; rfl
  · rw [h3, show stripTagPrefix (some (c!"i-" ++ p)) = some p from stripTagPrefix_i p]
    show (stripTagPrefix (some (withPrefix c!"i-" (tagOfPath m p)))).bind normTag = normTag (tagOfPath m p)
    unfold withPrefix
    by_cases hp : tagOfPath m p = []
    · rw [if_pos hp, hp]; rfl
    · rw [if_neg hp, show stripTagPrefix (some (c!"i-" ++ tagOfPath m p)) = some (tagOfPath m p) from stripTagPrefix_i _]; rfl

/-! ### Sub tags that are kept -/

/-- The characters of the tokens that are not white space with their sub tags. -/
def subChars (cc : CharClass) (toks : List Tok) : List (Char × Option Str) :=
  toks.flatMap (fun t => (t.text.filter (fun c => !cc.isSpace c)).map (fun c => (c, subValue t)))

def seqToks : List (Option Tok) → List Tok
  | [] => []
  | none :: r => seqToks r
  | some t :: r => t :: seqToks r

/-- `readSub` without the mark. -/
def readPath (mapping : Dict Str) (prev : List Str) (sub : Option Str) (begun : List (Option Str)) (t : Tok) : Option Str :=
  if (tokenPath mapping t).length ≤ (mainPath mapping t).length then none
  else if startsElement mapping prev begun t then some (joinWith c!"/" (tokenPath mapping t))
  else if tokenPath mapping t = prev then sub
  else none

theorem readPath_kept (cc : CharClass) (mapping : Dict Str) (toks : List Tok)
    (hd : ∀ t ∈ toks, blank cc t = false → Distinct cc mapping toks t) (prev : List Str)
    (sub : Option Str) (broken : Bool) (begun : List (Option Str)) (m : List Str) (ho : Owned cc mapping toks m prev)
    (hsub : broken = false → m.length < prev.length → sub = some (joinWith c!"/" prev)) (t : Tok) (htm : t ∈ toks)
    (hb : blank cc t = false) (hnm : SubNamed mapping t)
    (h1 : (mainPath mapping t).length < (tokenPath mapping t).length →
        startsElement mapping prev begun t ∨ (tokenPath mapping t = prev ∧ broken = false)) :
    readPath mapping prev sub begun t = (if (tokenPath mapping t).length ≤ (mainPath mapping t).length then none
        else some (joinWith c!"/" (tokenPath mapping t))) ∧
      (readPath mapping prev sub begun t).bind (subName mapping) = subValue t := by
  unfold readPath
  rcases hnm with ⟨g1, g2⟩ | ⟨g1, g2⟩
  · rw [if_pos (by rw [g2]; exact Nat.le_refl _)]
    exact ⟨(if_pos (by rw [g2]; exact Nat.le_refl _)).symm, g1.symm⟩
  · have hnl : ¬ (tokenPath mapping t).length ≤ (mainPath mapping t).length := by omega
    rw [if_neg hnl]
    have : (if startsElement mapping prev begun t then some (joinWith c!"/" (tokenPath mapping t))
        else if tokenPath mapping t = prev then sub else none) = some (joinWith c!"/" (tokenPath mapping t)) := by
      by_cases hst : startsElement mapping prev begun t
      · exact if_pos hst
      · rw [if_neg hst]
        obtain ⟨e1, e2⟩ := (h1 g1).resolve_left hst
        rw [if_pos e1, e1]
        refine hsub e2 ?_
        have hag := sameMain_of_distinct cc mapping toks hd m prev ho t htm hb prev (List.prefix_refl _) (by rw [e1]; exact List.prefix_refl _)
        have hm0 : mainPath mapping t ≠ [] := by
          intro h0
          rw [(hd t htm hb).main h0] at g1
          simp at g1
        have hmt : mainAt (mainPath mapping t) prev = some (mainPath mapping t).length :=
          if_pos ⟨hm0, by rw [← e1]; omega⟩
        rw [hmt] at hag
        rw [← (mainAt_some hag).2.2, ← e1]
        exact g1
    rw [this]
    exact ⟨(if_neg hnl).symm, g2⟩

/-- The characters of the tokens that are not white space with their sub tags and marks. -/
def subMarkChars (cc : CharClass) (toks : List Tok) : List (Char × Option Str × Bool) :=
  toks.flatMap (fun t => (entityLabels (subValue t) (beginsSub t) t.text).filter (fun x => !cc.isSpace x.1))

theorem entityLabels_drop (v : Option Str) (b : Bool) (s : Str) :
    (entityLabels v b s).map (fun x => (x.1, x.2.1)) = s.map (fun c => (c, v)) := by
  cases s <;> simp [entityLabels]

theorem filter_drop (cc : CharClass) (v : Option Str) (b : Bool) (s : Str) :
    ((entityLabels v b s).filter (fun x => !cc.isSpace x.1)).map (fun x => (x.1, x.2.1)) =
      (s.filter (fun c => !cc.isSpace c)).map (fun c => (c, v)) := by
  have e1 : ((entityLabels v b s).filter (fun x => !cc.isSpace x.1)).map (fun x => (x.1, x.2.1)) =
      ((entityLabels v b s).map (fun x => (x.1, x.2.1))).filter (fun x => !cc.isSpace x.1) := by
    rw [List.filter_map]; rfl
  rw [e1, entityLabels_drop, List.filter_map]; rfl

theorem subMarkChars_drop (cc : CharClass) (toks : List Tok) :
    (subMarkChars cc toks).map (fun x => (x.1, x.2.1)) = subChars cc toks := by
  unfold subMarkChars subChars
  rw [List.map_flatMap]
  simp only [filter_drop]

theorem subMarksReadBack_drop (cc : CharClass) (mapping : Dict Str) (prev : List Str) (sub : Option Str)
    (begun : List (Option Str)) (seq : List (Option Tok)) :
    (subMarksReadBack cc mapping prev sub begun seq).map (fun x => (x.1, x.2.1)) = subsReadBack cc mapping prev sub begun seq := by
  induction seq generalizing prev sub begun with
  | nil => rfl
  | cons o r ih =>
    cases o with
    | none => rw [subMarksReadBack, subsReadBack, ih]
    | some t =>
      rw [subMarksReadBack, subsReadBack]
      split
      · exact ih _ _ _
      · simp only [List.map_append, ih, filter_drop]

theorem readBack_kept (cc : CharClass) (mapping : Dict Str) (toks : List Tok)
    (hd : ∀ t ∈ toks, blank cc t = false → Distinct cc mapping toks t) (seq : List (Option Tok)) (prev : List Str)
    (sub : Option Str) (broken : Bool) (begun : List (Option Str)) (m : List Str) (ho : Owned cc mapping toks m prev)
    (hsub : broken = false → m.length < prev.length → sub = some (joinWith c!"/" prev))
    (ht : ∀ t, some t ∈ seq → t ∈ toks) (hnm : ∀ t ∈ toks, blank cc t = false → SubNamed mapping t)
    (h : SubsMarked cc mapping prev broken begun seq) :
    (subsReadBack cc mapping prev sub begun seq).map (fun x => (x.1, x.2.bind (subName mapping))) = subChars cc (seqToks seq) := by
  induction seq generalizing prev sub broken begun m with
  | nil => rfl
  | cons o r ih =>
    have ht' : ∀ t, some t ∈ r → t ∈ toks := fun t h => ht t (by simp [h])
    cases o with
    | none =>
      rw [subsReadBack, seqToks]
      exact ih prev none true begun m ho (fun h => by cases h) ht' h
    | some t =>
      rw [seqToks, subChars, List.flatMap_cons]
      cases hb : blank cc t with
      | true =>
        rw [subsReadBack, if_pos hb]
        rw [SubsMarked, if_pos hb] at h
        have : t.text.filter (fun c => !cc.isSpace c) = [] := by
          rw [List.filter_eq_nil_iff]
          intro c hc
          unfold blank at hb
          simp [List.all_eq_true.1 hb c hc]
        rw [this]
        exact ih prev sub broken _ m ho hsub ht' h
      | false =>
        have htm := ht t (by simp)
        rw [subsReadBack, if_neg (by simp [hb])]
        rw [SubsMarked, if_neg (by simp [hb])] at h
        obtain ⟨h1, h2⟩ := h
        have hro : Owned cc mapping toks (mainPath mapping t) (tokenPath mapping t) := .inr ⟨t, htm, hb, rfl, rfl⟩
        have key := readPath_kept cc mapping toks hd prev sub broken begun m ho hsub t htm hb (hnm t htm hb) h1
        show List.map _ (List.map (fun c => (c, readPath mapping prev sub begun t)) _ ++
          subsReadBack cc mapping (tokenPath mapping t) (readPath mapping prev sub begun t) [] r) = _
        rw [List.map_append, ih (tokenPath mapping t) _ false [] _ hro (fun _ hlt => by
          rw [key.1, if_neg (by omega)]) ht' h2, List.map_map]
        congr 1
        apply List.map_congr_left
        intro c _
        simp only [Function.comp_apply, key.2]

theorem entityLabels_map (g : Option Str → Option Str) (v : Option Str) (b : Bool) (s : Str) :
    (entityLabels v b s).map (fun x => (x.1, g x.2.1, x.2.2 && (g x.2.1).isSome)) = entityLabels (g v) (b && (g v).isSome) s := by
  cases s <;> simp [entityLabels]

theorem filter_labels_map (cc : CharClass) (g : Option Str → Option Str) (v : Option Str) (b : Bool) (s : Str) :
    ((entityLabels v b s).filter (fun x => !cc.isSpace x.1)).map (fun x => (x.1, g x.2.1, x.2.2 && (g x.2.1).isSome)) =
      (entityLabels (g v) (b && (g v).isSome) s).filter (fun x => !cc.isSpace x.1) := by
  rw [← entityLabels_map, List.filter_map]; rfl

theorem readBack_begins (cc : CharClass) (mapping : Dict Str) (toks : List Tok)
    (hd : ∀ t ∈ toks, blank cc t = false → Distinct cc mapping toks t) (seq : List (Option Tok)) (prev : List Str)
    (sub : Option Str) (broken : Bool) (begun : List (Option Str)) (m : List Str) (ho : Owned cc mapping toks m prev)
    (hsub : broken = false → m.length < prev.length → sub = some (joinWith c!"/" prev))
    (ht : ∀ t, some t ∈ seq → t ∈ toks) (hnm : ∀ t ∈ toks, blank cc t = false → SubNamed mapping t)
    (h : SubsMarked cc mapping prev broken begun seq) (hg : SubsBegun cc mapping prev begun seq) :
    (subMarksReadBack cc mapping prev sub begun seq).map
      (fun x => (x.1, x.2.1.bind (subName mapping), x.2.2 && (x.2.1.bind (subName mapping)).isSome)) =
      subMarkChars cc (seqToks seq) := by
  induction seq generalizing prev sub broken begun m with
  | nil => rfl
  | cons o r ih =>
    have ht' : ∀ t, some t ∈ r → t ∈ toks := fun t h => ht t (by simp [h])
    cases o with
    | none =>
      rw [subMarksReadBack, seqToks]
      exact ih prev none true begun m ho (fun h => by cases h) ht' h hg
    | some t =>
      rw [seqToks, subMarkChars, List.flatMap_cons]
      cases hb : blank cc t with
      | true =>
        rw [subMarksReadBack, if_pos hb]
        rw [SubsMarked, if_pos hb] at h
        rw [SubsBegun, if_pos hb] at hg
        have : (entityLabels (subValue t) (beginsSub t) t.text).filter (fun x => !cc.isSpace x.1) = [] := by
          have h0 := filter_drop cc (subValue t) (beginsSub t) t.text
          have h1 : t.text.filter (fun c => !cc.isSpace c) = [] := by
            rw [List.filter_eq_nil_iff]
            intro c hc
            unfold blank at hb
            simp [List.all_eq_true.1 hb c hc]
          rw [h1] at h0
          exact List.map_eq_nil_iff.1 h0
        rw [this]
        exact ih prev sub broken _ m ho hsub ht' h hg
      | false =>
        have htm := ht t (by simp)
        rw [subMarksReadBack, if_neg (by simp [hb])]
        rw [SubsMarked, if_neg (by simp [hb])] at h
        rw [SubsBegun, if_neg (by simp [hb])] at hg
        obtain ⟨h1, h2⟩ := h
        have hro : Owned cc mapping toks (mainPath mapping t) (tokenPath mapping t) := .inr ⟨t, htm, hb, rfl, rfl⟩
        have key := readPath_kept cc mapping toks hd prev sub broken begun m ho hsub t htm hb (hnm t htm hb) h1
        show List.map _ ((entityLabels (readPath mapping prev sub begun t) _ _).filter _ ++
          subMarksReadBack cc mapping (tokenPath mapping t) (readPath mapping prev sub begun t) [] r) = _
        rw [List.map_append, ih (tokenPath mapping t) _ false [] _ hro (fun _ hlt => by
          rw [key.1, if_neg (by omega)]) ht' h2 hg.2, filter_labels_map cc (fun v => v.bind (subName mapping)), key.2]
        congr 3
        rw [hg.1]
        cases subValue t <;> simp

/-- The marks of the sub tags of loaded tokens. -/
theorem beginsSub_renamed (m : Dict Str) (t u : Tok)
    (h1 : t.attrib.get? c!"level2_tag" = none)
    (h2 : t.attrib.get? c!"level2_preserved_tag" = (u.attrib.get? c!"level2_tag").map (renameTag (tagOfPath m)))
    (h3 : u.attrib.get? c!"level2_tag" = none ∨ ∃ p, u.attrib.get? c!"level2_tag" = some (c!"b-" ++ p) ∨
      u.attrib.get? c!"level2_tag" = some (c!"i-" ++ p)) :
    beginsSub t = (hasBegin (u.attrib.get? c!"level2_tag") &&
      ((stripTagPrefix (u.attrib.get? c!"level2_tag")).bind (subName m)).isSome) := by
  have hf : fullSubTag t = (u.attrib.get? c!"level2_tag").map (renameTag (tagOfPath m)) := by
    unfold fullSubTag
    rw [h1, h2]; rfl
  unfold beginsSub
  rw [hf]
  rcases h3 with h3 | ⟨p, h3 | h3⟩
  · rw [h3]; rfl
  · rw [h3, show stripTagPrefix (some (c!"b-" ++ p)) = some p from stripTagPrefix_b p]
    have e1 : hasBegin (some (c!"b-" ++ p)) = true := by simp [hasBegin, startsWith]
    rw [e1, Bool.true_and]
    show startsWith c!"b-" (withPrefix c!"b-" (tagOfPath m p)) = (normTag (tagOfPath m p)).isSome
    unfold withPrefix normTag
    by_cases hp : tagOfPath m p = []
    · rw [if_pos hp, if_pos hp]; rfl
    · rw [if_neg hp, if_neg hp]; simp [startsWith]
  · rw [h3]
    show startsWith c!"b-" (withPrefix c!"i-" (tagOfPath m p)) = (false && _)
    rw [Bool.false_and]
    unfold withPrefix
    by_cases hp : tagOfPath m p = []
    · rw [if_pos hp]; rfl
    · rw [if_neg hp]; rfl

/-- The marked characters of the loaded document from those of the tokens it was made of. -/
theorem viewStream_marks (cc : CharClass) (m : Dict Str) (ts : List Tok) :
    ((viewStream (ts.map (fun t => (t.text, t.attrib.get? c!"level2_tag")))).filter (fun x => !cc.isSpace x.1)).map
      (fun x => (x.1, x.2.1.bind (subName m), x.2.2 && (x.2.1.bind (subName m)).isSome)) =
    ts.flatMap (fun t => (entityLabels ((stripTagPrefix (t.attrib.get? c!"level2_tag")).bind (subName m))
      (hasBegin (t.attrib.get? c!"level2_tag") && ((stripTagPrefix (t.attrib.get? c!"level2_tag")).bind (subName m)).isSome)
      t.text).filter (fun x => !cc.isSpace x.1)) := by
  have hfl : ∀ (b : Bool) (v : Option Str) (s : Str), flagFirst b (s.map (fun c => (c, v))) = entityLabels v b s := by
    intro b v s
    cases s <;> simp [flagFirst, entityLabels]
  unfold viewStream
  rw [List.flatMap_map]
  induction ts with
  | nil => rfl
  | cons t ts ih =>
    rw [List.flatMap_cons, List.flatMap_cons, List.filter_append, List.map_append, ih, hfl,
      filter_labels_map cc (fun v => v.bind (subName m))]

theorem seqToks_withBreaks (ls : List (List Tok)) : seqToks (withBreaks ls) = ls.flatten := by
  have hmap : ∀ (l : List Tok) r, seqToks (l.map some ++ r) = l ++ seqToks r := by
    intro l r
    induction l with
    | nil => rfl
    | cons t l ih => simp [seqToks, ih]
  induction ls with
  | nil => rfl
  | cons l ls ih =>
    cases ls with
    | nil => simpa [withBreaks, seqToks] using hmap l []
    | cons m ls => rw [withBreaks, hmap, seqToks, ih]; simp

theorem mem_withBreaks {ls : List (List Tok)} {t : Tok} (h : some t ∈ withBreaks ls) : t ∈ ls.flatten := by
  rw [← seqToks_withBreaks]
  generalize withBreaks ls = seq at h
  induction seq with
  | nil => cases h
  | cons o r ih =>
    cases o with
    | none => exact ih (by simpa using h)
    | some u =>
      rcases List.mem_cons.1 h with h | h
      · cases h; simp [seqToks]
      · exact List.mem_cons_of_mem _ (ih h)

end Verif
