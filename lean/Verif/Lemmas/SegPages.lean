/-
Lemmas about the page numbers that are missing.
-/
import Verif.Spec.Segmentation
import Verif.Lemmas.Segmentation

namespace Verif

theorem isPageNumberText_iff (env : SegEnv) (s : Str) : isPageNumberText env s = true ↔
    (if s.getLast? = some '\n' then s.dropLast else s) ≠ [] ∧
      ∀ c ∈ (if s.getLast? = some '\n' then s.dropLast else s), env.isDigit c = true := by
  unfold isPageNumberText
  simp only [Bool.and_eq_true, Bool.not_eq_true', List.all_eq_true, List.isEmpty_eq_false_iff]

/-- The line feed is not a digit. -/
theorem isPageNumberText_spec {env : SegEnv} (henv : env.isDigit '\n' = false) (s : Str) :
    isPageNumberText env s = true ↔ Spec.IsNumber env s := by
  rw [isPageNumberText_iff]
  constructor
  · rintro ⟨h1, h2⟩
    split at h1
    · next h =>
      rw [if_pos h] at h2
      refine ⟨_, h1, h2, .inr ?_⟩
      obtain ⟨ys, rfl⟩ := List.getLast?_eq_some_iff.1 h
      rw [List.dropLast_concat]
    · next h =>
      rw [if_neg h] at h2
      exact ⟨s, h1, h2, .inl rfl⟩
  · rintro ⟨ds, h1, h2, rfl | rfl⟩
    · have : ¬ s.getLast? = some '\n' := by
        intro h
        have := h2 '\n' (List.mem_of_getLast? h)
        rw [henv] at this
        cases this
      rw [if_neg this]
      exact ⟨h1, h2⟩
    · rw [if_pos (List.getLast?_concat), List.dropLast_concat]
      exact ⟨h1, h2⟩

/-! ### The inner loop -/

theorem pageInner_minLine (M : Nat) (P : Int) (X : List (Int × SegLine)) (p : PageState) :
    (X.foldl (pageInnerStep M P) p).minLine = p.minLine := by
  induction X generalizing p with
  | nil => rfl
  | cons c X ih =>
    rw [List.foldl_cons, ih]
    unfold pageInnerStep
    repeat' split
    all_goals rfl

theorem pageInner_skip {M : Nat} {P : Int} {X : List (Int × SegLine)} {p : PageState} (h : ∀ c ∈ X, c.2.index < p.minLine) :
    X.foldl (pageInnerStep M P) p = p := by
  induction X with
  | nil => rfl
  | cons c X ih =>
    rw [List.foldl_cons]
    have : pageInnerStep M P p c = p := by
      unfold pageInnerStep; rw [if_pos (h c List.mem_cons_self)]
    rw [this]
    exact ih (fun x hx => h x (List.mem_cons_of_mem _ hx))

theorem pageInner_relabels {ls : List SegLine} {M : Nat} {P : Int} (X : List (Int × SegLine)) (hX : ∀ c ∈ X, c.2 ∈ ls) (p : PageState)
    (ho : OwnLines p.st.doc ls) : Relabels ls p.st (X.foldl (pageInnerStep M P) p).st := by
  induction X generalizing p with
  | nil => exact .refl _ _
  | cons c X ih =>
    rw [List.foldl_cons]
    have h1 : Relabels ls p.st (pageInnerStep M P p c).st := by
      unfold pageInnerStep
      repeat' split
      any_goals exact .refl _ _
      exact set_relabels ho (hX c List.mem_cons_self) _
    exact h1.trans (ih (fun x hx => hX x (List.mem_cons_of_mem _ hx)) _ (ho.congr h1.same))

theorem pageInner_same {ls : List SegLine} {M : Nat} {P : Int} (X : List (Int × SegLine)) (hX : ∀ c ∈ X, c.2 ∈ ls) (p : PageState)
    (ho : OwnLines p.st.doc ls) {l : SegLine} (hl : l ∈ ls)
    (h : ∀ c ∈ X, c.2.index = l.index → l.index < p.minLine ∨ M < l.index) :
    SameLine p.st (X.foldl (pageInnerStep M P) p).st l := by
  induction X generalizing p with
  | nil => exact ⟨rfl, fun _ _ => rfl⟩
  | cons c X ih =>
    rw [List.foldl_cons]
    have hc := hX c List.mem_cons_self
    have hX' := fun x hx => hX x (List.mem_cons_of_mem c hx)
    have h1 : Relabels ls p.st (pageInnerStep M P p c).st :=
      pageInner_relabels [c] (by intro x hx; rw [List.mem_singleton.1 hx]; exact hc) p ho
    have hm : (pageInnerStep M P p c).minLine = p.minLine := pageInner_minLine M P [c] p
    have h2 : SameLine p.st (pageInnerStep M P p c).st l := by
      by_cases e : c.2.index = l.index
      · have := h c List.mem_cons_self e
        unfold pageInnerStep
        rcases this with h' | h'
        · rw [if_pos (by omega)]; exact ⟨rfl, fun _ _ => rfl⟩
        · split
          · exact ⟨rfl, fun _ _ => rfl⟩
          · rw [if_pos (by omega)]; exact ⟨rfl, fun _ _ => rfl⟩
      · unfold pageInnerStep
        repeat' split
        any_goals exact ⟨rfl, fun _ _ => rfl⟩
        exact (set_only ho hc _).other l hl (Ne.symm e)
    refine h2.trans (ih hX' _ (ho.congr h1.same) ?_)
    intro x hx e
    rw [hm]
    exact h x (List.mem_cons_of_mem _ hx) e

/-! ### The outer loop -/

theorem pageOuter_relabels {ls : List SegLine} {cands : List (Int × SegLine)} (hX : ∀ c ∈ cands, c.2 ∈ ls) (E : List (Int × SegLine))
    (p : PageState) (ho : OwnLines p.st.doc ls) : Relabels ls p.st (E.foldl (pageOuterStep cands) p).st := by
  induction E generalizing p with
  | nil => exact .refl _ _
  | cons e E ih =>
    rw [List.foldl_cons]
    have h1 : Relabels ls p.st (pageOuterStep cands p e).st := pageInner_relabels cands hX p ho
    exact h1.trans (ih _ (ho.congr h1.same))

theorem pageOuter_left {ls : List SegLine} {cands : List (Int × SegLine)} (hX : ∀ c ∈ cands, c.2 ∈ ls) (E : List (Int × SegLine))
    (p : PageState) (ho : OwnLines p.st.doc ls) {l : SegLine} (hl : l ∈ ls) (h : ∀ e ∈ E, e.2.index < l.index) :
    SameLine p.st (E.foldl (pageOuterStep cands) p).st l := by
  induction E generalizing p with
  | nil => exact ⟨rfl, fun _ _ => rfl⟩
  | cons e E ih =>
    rw [List.foldl_cons]
    have h1 : Relabels ls p.st (pageOuterStep cands p e).st := pageInner_relabels cands hX p ho
    have h2 : SameLine p.st (pageOuterStep cands p e).st l :=
      pageInner_same cands hX p ho hl (fun c _ _ => .inr (h e List.mem_cons_self))
    exact h2.trans (ih _ (ho.congr h1.same) (fun x hx => h x (List.mem_cons_of_mem _ hx)))

theorem pageOuter_right {ls : List SegLine} {cands : List (Int × SegLine)} (hX : ∀ c ∈ cands, c.2 ∈ ls) (E : List (Int × SegLine))
    (p : PageState) (ho : OwnLines p.st.doc ls) {l : SegLine} (hl : l ∈ ls) (hp : l.index < p.minLine) (h : ∀ e ∈ E, l.index < e.2.index) :
    SameLine p.st (E.foldl (pageOuterStep cands) p).st l := by
  induction E generalizing p with
  | nil => exact ⟨rfl, fun _ _ => rfl⟩
  | cons e E ih =>
    rw [List.foldl_cons]
    have h1 : Relabels ls p.st (pageOuterStep cands p e).st := pageInner_relabels cands hX p ho
    have h2 : SameLine p.st (pageOuterStep cands p e).st l :=
      pageInner_same cands hX p ho hl (fun c _ _ => .inl hp)
    exact h2.trans (ih _ (ho.congr h1.same) (h e List.mem_cons_self) (fun x hx => h x (List.mem_cons_of_mem _ hx)))

theorem pageOuter_concat (cands : List (Int × SegLine)) (E : List (Int × SegLine)) (e : Int × SegLine) (p : PageState) :
    ((E ++ [e]).foldl (pageOuterStep cands) p).minLine = e.2.index ∧ ((E ++ [e]).foldl (pageOuterStep cands) p).minPage = e.1 := by
  rw [List.foldl_append]
  refine ⟨rfl, ?_⟩
  show e.1 - 1 + 1 = e.1
  omega

/-! ### The expected number -/

/-- The number expected after the lines of a gap. -/
def gapNumber (env : SegEnv) (tag : Nat → Option Str) (hi : Int) (lo : Int) (ls : List SegLine) : Int :=
  ls.foldl (fun lo l => if (!truthy (tag l.index) && isPageNumberText env l.text) = true ∧ lo ≤ parsePageNumber env l.text ∧
    parsePageNumber env l.text < hi then lo + 1 else lo) lo

theorem pageInner_gap (env : SegEnv) (tag : Nat → Option Str) {M : Nat} {hi : Int} (g : List SegLine) (p : PageState)
    (h : ∀ l ∈ g, p.minLine ≤ l.index ∧ l.index ≤ M) :
    (((g.filter (fun l => !truthy (tag l.index) && isPageNumberText env l.text)).map
      (fun l => (parsePageNumber env l.text, l))).foldl (pageInnerStep M (hi - 1)) p).minPage =
    gapNumber env tag hi p.minPage g := by
  induction g generalizing p with
  | nil => rfl
  | cons a g ih =>
    have ha := h a List.mem_cons_self
    have hg := fun x hx => h x (List.mem_cons_of_mem a hx)
    rw [List.filter_cons]
    unfold gapNumber
    rw [List.foldl_cons]
    split
    · next hc =>
      rw [List.map_cons, List.foldl_cons]
      have hm := pageInner_minLine M (hi - 1) [(parsePageNumber env a.text, a)] p
      have hm' : (pageInnerStep M (hi - 1) p (parsePageNumber env a.text, a)).minLine = p.minLine := hm
      rw [ih _ (by intro x hx; rw [hm']; exact hg x hx)]
      unfold gapNumber
      congr 1
      unfold pageInnerStep
      simp only []
      rw [if_neg (by omega), if_neg (by omega)]
      by_cases h1 : parsePageNumber env a.text < p.minPage
      · rw [if_pos h1, if_neg (by rintro ⟨_, h2, _⟩; omega)]
      · rw [if_neg h1]
        by_cases h2 : hi - 1 < parsePageNumber env a.text
        · rw [if_pos h2, if_neg (by rintro ⟨_, _, h3⟩; omega)]
        · rw [if_neg h2, if_pos ⟨hc, by omega, by omega⟩]
    · next hc =>
      rw [ih _ hg]
      unfold gapNumber
      congr 1
      rw [if_neg (fun x => hc x.1)]

theorem expected_gap {env : SegEnv} (henv : env.isDigit '\n' = false) {tag : Nat → Option Str} {hi : Int} (g : List SegLine)
    (hg : ∀ l ∈ g, tag l.index ≠ some segPage) {a : List SegLine} {lo : Int} (h : Spec.Expected env tag hi a lo) :
    Spec.Expected env tag hi (a ++ g) (gapNumber env tag hi lo g) := by
  induction g generalizing a lo with
  | nil => simpa [gapNumber] using h
  | cons l g ih =>
    have hstep : Spec.Expected env tag hi (a ++ [l]) (if (!truthy (tag l.index) && isPageNumberText env l.text) = true ∧
        lo ≤ parsePageNumber env l.text ∧ parsePageNumber env l.text < hi then lo + 1 else lo) := by
      split
      · next hc =>
        obtain ⟨h1, h2, h3⟩ := hc
        rw [Bool.and_eq_true, Bool.not_eq_true', isPageNumberText_spec henv] at h1
        exact .found h h1.1 h1.2 h2 h3
      · next hc =>
        refine .other h (hg l List.mem_cons_self) ?_
        rintro ⟨h1, h2, h3, h4⟩
        apply hc
        rw [Bool.and_eq_true, Bool.not_eq_true', isPageNumberText_spec henv]
        exact ⟨⟨h1, h2⟩, h3, h4⟩
    have := ih (fun x hx => hg x (List.mem_cons_of_mem _ hx)) hstep
    rw [List.append_assoc, List.singleton_append] at this
    exact this

theorem expected_fun {env : SegEnv} {tag : Nat → Option Str} {hi : Int} {a : List SegLine} {n m : Int}
    (h : Spec.Expected env tag hi a n) (h' : Spec.Expected env tag hi a m) : n = m := by
  induction h generalizing m with
  | start =>
    generalize hz : ([] : List SegLine) = z at h'
    cases h' with
    | start => rfl
    | page _ _ => simp at hz
    | found _ _ _ _ _ => simp at hz
    | other _ _ _ => simp at hz
  | @page a l n h1 ht ih =>
    generalize hz : a ++ [l] = z at h'
    cases h' with
    | start => simp at hz
    | page _ _ => obtain ⟨e, e'⟩ := List.append_inj' hz rfl; rw [List.singleton_inj.1 e']
    | found _ ht' _ _ _ =>
      obtain ⟨e, e'⟩ := List.append_inj' hz rfl
      rw [List.singleton_inj.1 e'] at ht
      rw [ht] at ht'
      cases ht'
    | other _ ht' _ =>
      obtain ⟨e, e'⟩ := List.append_inj' hz rfl
      rw [List.singleton_inj.1 e'] at ht
      exact absurd ht ht'
  | @found a l n h1 ht h2 h3 h4 ih =>
    generalize hz : a ++ [l] = z at h'
    cases h' with
    | start => simp at hz
    | page _ ht' =>
      obtain ⟨e, e'⟩ := List.append_inj' hz rfl
      rw [List.singleton_inj.1 e', ht'] at ht
      cases ht
    | found hx _ _ _ _ => obtain ⟨e, e'⟩ := List.append_inj' hz rfl; rw [ih (e ▸ hx)]
    | other hx _ hn =>
      obtain ⟨e, e'⟩ := List.append_inj' hz rfl
      have := ih (e ▸ hx)
      rw [List.singleton_inj.1 e'] at ht h2 h3 h4
      exact absurd ⟨ht, h2, this ▸ h3, h4⟩ hn
  | @other a l n h1 ht hn ih =>
    generalize hz : a ++ [l] = z at h'
    cases h' with
    | start => simp at hz
    | page _ ht' =>
      obtain ⟨e, e'⟩ := List.append_inj' hz rfl
      rw [List.singleton_inj.1 e'] at ht
      exact absurd ht' ht
    | found hx ht' h2 h3 h4 =>
      obtain ⟨e, e'⟩ := List.append_inj' hz rfl
      have := ih (e ▸ hx)
      rw [List.singleton_inj.1 e'] at hn
      exact absurd ⟨ht', h2, this ▸ h3, h4⟩ hn
    | other hx _ _ => obtain ⟨e, e'⟩ := List.append_inj' hz rfl; rw [ih (e ▸ hx)]

/-! ### All page numbers -/

theorem last_split {α : Type} (p : α → Bool) (l : List α) :
    (∀ x ∈ l, p x = false) ∨ ∃ a x g, l = a ++ x :: g ∧ p x = true ∧ ∀ y ∈ g, p y = false := by
  induction l with
  | nil => left; simp
  | cons a l ih =>
    rcases ih with h | ⟨b, x, g, rfl, hx, hg⟩
    · cases hp : p a with
      | true => exact .inr ⟨[], a, l, rfl, hp, h⟩
      | false =>
        left
        intro x hx
        rcases List.mem_cons.1 hx with rfl | hx
        · exact hp
        · exact h x hx
    · exact .inr ⟨a :: b, x, g, rfl, hx, hg⟩

theorem pageOuter_not {ls : List SegLine} {cands : List (Int × SegLine)} (hX : ∀ c ∈ cands, c.2 ∈ ls) (E : List (Int × SegLine))
    (p : PageState) (ho : OwnLines p.st.doc ls) {l : SegLine} (hl : l ∈ ls) (hn : ∀ c ∈ cands, c.2.index ≠ l.index) :
    SameLine p.st (E.foldl (pageOuterStep cands) p).st l := by
  induction E generalizing p with
  | nil => exact ⟨rfl, fun _ _ => rfl⟩
  | cons e E ih =>
    rw [List.foldl_cons]
    have h1 : Relabels ls p.st (pageOuterStep cands p e).st := pageInner_relabels cands hX p ho
    have h2 : SameLine p.st (pageOuterStep cands p e).st l :=
      pageInner_same cands hX p ho hl (fun c hc e => absurd e (hn c hc))
    exact h2.trans (ih _ (ho.congr h1.same))

theorem expected_exists {env : SegEnv} (tag : Nat → Option Str) (hi : Int) (b : List SegLine) : ∃ n, Spec.Expected env tag hi b n := by
  have key : ∀ (b a : List SegLine) n, Spec.Expected env tag hi a n → ∃ m, Spec.Expected env tag hi (a ++ b) m := by
    intro b
    induction b with
    | nil => intro a n h; exact ⟨n, by simpa using h⟩
    | cons l b ih =>
      intro a n h
      have : ∃ m, Spec.Expected env tag hi (a ++ [l]) m := by
        by_cases h1 : tag l.index = some segPage
        · exact ⟨_, .page h h1⟩
        · by_cases h2 : truthy (tag l.index) = false ∧ Spec.IsNumber env l.text ∧ n ≤ Spec.pageNumber env l.text ∧ Spec.pageNumber env l.text < hi
          · exact ⟨_, .found h h2.1 h2.2.1 h2.2.2.1 h2.2.2.2⟩
          · exact ⟨_, .other h h1 h2⟩
      obtain ⟨m, hm⟩ := this
      have := ih _ m hm
      simpa using this
  exact key b [] 1 .start

theorem pageOuter_start {cands : List (Int × SegLine)} {E : List (Int × SegLine)} {st : SegState} {tag : Nat → Option Str} {env : SegEnv}
    {a : List SegLine} (ha : a.Pairwise (fun l l' => l.index < l'.index))
    (hE : E = (a.filter (fun l => tag l.index = some segPage)).map (fun l => (parsePageNumber env l.text, l))) (hi : Int) :
    ∃ a0 g, a = a0 ++ g ∧ (∀ x ∈ g, tag x.index ≠ some segPage) ∧
      (∀ x ∈ a0, x.index < (E.foldl (pageOuterStep cands) ⟨st, 0, 1⟩).minLine ∨ tag x.index = some segPage) ∧
      (∀ x ∈ g, (E.foldl (pageOuterStep cands) ⟨st, 0, 1⟩).minLine ≤ x.index) ∧
      Spec.Expected env tag hi a0 (E.foldl (pageOuterStep cands) ⟨st, 0, 1⟩).minPage := by
  rcases last_split (fun l => decide (tag l.index = some segPage)) a with h | ⟨a1, x, g, rfl, hx, hg⟩
  · have : E = [] := by
      rw [hE, List.filter_eq_nil_iff.2 (by intro x hx; rw [h x hx]; simp)]; rfl
    rw [this]
    refine ⟨[], a, rfl, ?_, by simp, by intro x _; exact Nat.zero_le _, .start⟩
    intro y hy; simpa using h y hy
  · have e : E = (a1.filter (fun l => tag l.index = some segPage)).map (fun l => (parsePageNumber env l.text, l)) ++
        [(parsePageNumber env x.text, x)] := by
      have hgn : g.filter (fun l => decide (tag l.index = some segPage)) = [] :=
        List.filter_eq_nil_iff.2 (by intro y hy; rw [hg y hy]; simp)
      rw [hE, List.filter_append, List.filter_cons, if_pos (by simpa using hx), hgn, List.map_append]
      rfl
    rw [e]
    obtain ⟨e1, e2⟩ := pageOuter_concat cands ((a1.filter (fun l => tag l.index = some segPage)).map
      (fun l => (parsePageNumber env l.text, l))) (parsePageNumber env x.text, x) ⟨st, 0, 1⟩
    rw [e1, e2]
    have hx' : tag x.index = some segPage := by simpa using hx
    rw [List.pairwise_append, List.pairwise_cons] at ha
    refine ⟨a1 ++ [x], g, by simp, ?_, ?_, ?_, ?_⟩
    · intro y hy; simpa using hg y hy
    · intro y hy
      rcases List.mem_append.1 hy with hy | hy
      · exact .inl (ha.2.2 y hy x List.mem_cons_self)
      · rw [List.mem_singleton.1 hy]; exact .inr hx'
    · intro y hy
      exact Nat.le_of_lt (ha.2.1.1 y hy)
    · obtain ⟨n, hn⟩ := expected_exists tag hi a1
      exact .page hn hx'

/-- Exactly the page numbers not yet known are tagged. -/
theorem findMissingPages_effect {env : SegEnv} (henv : env.isDigit '\n' = false) {ls : List SegLine} {st : SegState}
    (ho : OwnLines st.doc ls) :
    Relabels ls st (findMissingPages env ls st) ∧
    ∀ a l b, ls = a ++ l :: b →
      (Spec.FoundPage env st.tag a l b → (findMissingPages env ls st).tag l.index = some segPage ∧
        Shown (findMissingPages env ls st).doc l (some segPage)) ∧
      (¬ Spec.FoundPage env st.tag a l b → SameLine st (findMissingPages env ls st) l) := by
  generalize hE : (ls.filter (fun l => st.tag l.index = some segPage)).map (fun l => (parsePageNumber env l.text, l)) = E
  generalize hC : (ls.filter (fun l => !truthy (st.tag l.index) && isPageNumberText env l.text)).map
    (fun l => (parsePageNumber env l.text, l)) = cands
  have e0 : findMissingPages env ls st = (E.foldl (pageOuterStep cands) ⟨st, 0, 1⟩).st := by
    rw [← hE, ← hC]; rfl
  have hX : ∀ c ∈ cands, c.2 ∈ ls ∧ (!truthy (st.tag c.2.index) && isPageNumberText env c.2.text) = true := by
    intro c hc
    rw [← hC] at hc
    obtain ⟨l, hl, rfl⟩ := List.mem_map.1 hc
    exact List.mem_filter.1 hl
  rw [e0]
  refine ⟨pageOuter_relabels (fun c hc => (hX c hc).1) E ⟨st, 0, 1⟩ ho, ?_⟩
  intro a l b hls
  have hl : l ∈ ls := by rw [hls]; simp
  by_cases hcand : (!truthy (st.tag l.index) && isPageNumberText env l.text) = true
  · have hcand' := hcand
    rw [Bool.and_eq_true, Bool.not_eq_true', isPageNumberText_spec henv] at hcand'
    have hnp : st.tag l.index ≠ some segPage := by
      intro h
      have := hcand'.1
      rw [h] at this; cases this
    have hidx := ho.index
    rw [hls, List.pairwise_append, List.pairwise_cons] at hidx
    obtain ⟨ha, ⟨hb, hbb⟩, hab⟩ := hidx
    -- the known page numbers before and after
    generalize hEa : (a.filter (fun l => st.tag l.index = some segPage)).map (fun l => (parsePageNumber env l.text, l)) = Ea
    have hEsplit : E = Ea ++ (b.filter (fun l => st.tag l.index = some segPage)).map (fun l => (parsePageNumber env l.text, l)) := by
      rw [← hE, hls, List.filter_append, List.filter_cons, if_neg (by simpa using hnp), List.map_append, hEa]
    have hEalt : ∀ e ∈ Ea, e.2.index < l.index := by
      intro e he
      rw [← hEa] at he
      obtain ⟨x, hx, rfl⟩ := List.mem_map.1 he
      exact hab x (List.mem_filter.1 hx).1 l List.mem_cons_self
    have hleft := pageOuter_left (fun c hc => (hX c hc).1) Ea ⟨st, 0, 1⟩ ho hl hEalt
    have hrel := pageOuter_relabels (fun c hc => (hX c hc).1) Ea ⟨st, 0, 1⟩ ho
    cases hnext : b.filter (fun l => st.tag l.index = some segPage) with
    | nil =>
      rw [hEsplit, hnext, List.map_nil, List.append_nil]
      refine ⟨?_, fun _ => hleft⟩
      rintro ⟨_, _, e, n, he, _⟩
      have he' : (b.filter (fun l => st.tag l.index = some segPage)).head? = some e := he
      rw [hnext] at he'
      cases he'
    | cons e Eb =>
      rw [hEsplit, hnext, List.map_cons, List.foldl_append, List.foldl_cons]
      have heb : ∀ x ∈ e :: Eb, l.index < x.index := by
        intro x hx
        rw [← hnext] at hx
        exact hb x (List.mem_filter.1 hx).1
      generalize hp1 : Ea.foldl (pageOuterStep cands) ⟨st, 0, 1⟩ = p1 at *
      obtain ⟨a0, g, hag, hg1, hg2, hg3, hg4⟩ := pageOuter_start (cands := cands) (st := st) (env := env) ha hEa.symm (parsePageNumber env e.text)
      rw [hp1] at hg2 hg3 hg4
      have hexp : Spec.Expected env st.tag (parsePageNumber env e.text) a0 p1.minPage := hg4
      have hexp2 := expected_gap henv g hg1 hexp
      rw [← hag] at hexp2
      -- the candidates
      have hCsplit : cands = (a0.filter (fun l => !truthy (st.tag l.index) && isPageNumberText env l.text)).map
          (fun l => (parsePageNumber env l.text, l)) ++ ((g.filter (fun l => !truthy (st.tag l.index) && isPageNumberText env l.text)).map
          (fun l => (parsePageNumber env l.text, l)) ++ (parsePageNumber env l.text, l) ::
          (b.filter (fun l => !truthy (st.tag l.index) && isPageNumberText env l.text)).map (fun l => (parsePageNumber env l.text, l))) := by
        rw [← hC, hls, hag, List.filter_append, List.filter_append, List.filter_cons, if_pos hcand]
        simp only [List.map_append, List.map_cons, List.append_assoc]
      have hskip : ((a0.filter (fun l => !truthy (st.tag l.index) && isPageNumberText env l.text)).map
          (fun l => (parsePageNumber env l.text, l))).foldl (pageInnerStep e.index (parsePageNumber env e.text - 1)) p1 = p1 := by
        apply pageInner_skip
        intro c hc
        obtain ⟨x, hx, rfl⟩ := List.mem_map.1 hc
        obtain ⟨hx1, hx2⟩ := List.mem_filter.1 hx
        rcases hg2 x hx1 with h | h
        · exact h
        · rw [h] at hx2; cases hx2
      have hgap := pageInner_gap (hi := parsePageNumber env e.text) env st.tag (M := e.index) g p1 (by
        intro x hx
        refine ⟨hg3 x hx, ?_⟩
        have h1 := hab x (by rw [hag]; exact List.mem_append_right _ hx) l List.mem_cons_self
        have h2 := heb e List.mem_cons_self
        omega)
      generalize hcg : (g.filter (fun l => !truthy (st.tag l.index) && isPageNumberText env l.text)).map
        (fun l => (parsePageNumber env l.text, l)) = cg at *
      generalize hcb : (b.filter (fun l => !truthy (st.tag l.index) && isPageNumberText env l.text)).map
        (fun l => (parsePageNumber env l.text, l)) = cb at *
      have hcgls : ∀ c ∈ cg, c.2 ∈ ls ∧ c.2.index < l.index := by
        intro c hc
        rw [← hcg] at hc
        obtain ⟨x, hx, rfl⟩ := List.mem_map.1 hc
        have hxa : x ∈ a := by rw [hag]; exact List.mem_append_right _ (List.mem_filter.1 hx).1
        exact ⟨by rw [hls]; exact List.mem_append_left _ hxa, hab x hxa l List.mem_cons_self⟩
      have hcbls : ∀ c ∈ cb, c.2 ∈ ls ∧ l.index < c.2.index := by
        intro c hc
        rw [← hcb] at hc
        obtain ⟨x, hx, rfl⟩ := List.mem_map.1 hc
        have hxb := (List.mem_filter.1 hx).1
        exact ⟨by rw [hls]; exact List.mem_append_right _ (List.mem_cons_of_mem _ hxb), hb x hxb⟩
      have hop1 : OwnLines p1.st.doc ls := ho.congr hrel.same
      have hstep : pageOuterStep cands p1 (parsePageNumber env e.text, e) =
          ⟨(cb.foldl (pageInnerStep e.index (parsePageNumber env e.text - 1)) (pageInnerStep e.index (parsePageNumber env e.text - 1)
            (cg.foldl (pageInnerStep e.index (parsePageNumber env e.text - 1)) p1) (parsePageNumber env l.text, l))).st, e.index,
            parsePageNumber env e.text - 1 + 1⟩ := by
        unfold pageOuterStep
        rw [hCsplit, List.foldl_append, List.foldl_append, List.foldl_cons, hskip]
      rw [hstep]
      generalize hp2 : cg.foldl (pageInnerStep e.index (parsePageNumber env e.text - 1)) p1 = p2 at *
      have hs2 : SameLine p1.st p2.st l := by
        rw [← hp2]
        exact pageInner_same cg (fun c hc => (hcgls c hc).1) p1 hop1 hl (fun c hc e => by have := (hcgls c hc).2; omega)
      have hr2 : Relabels ls p1.st p2.st := by
        rw [← hp2]; exact pageInner_relabels cg (fun c hc => (hcgls c hc).1) p1 hop1
      have hm2 : p2.minLine = p1.minLine := by rw [← hp2]; exact pageInner_minLine _ _ _ _
      have hop2 := hop1.congr hr2.same
      generalize hp3 : pageInnerStep e.index (parsePageNumber env e.text - 1) p2 (parsePageNumber env l.text, l) = p3 at *
      have hr3 : Relabels ls p2.st p3.st := by
        rw [← hp3]
        exact pageInner_relabels [(parsePageNumber env l.text, l)] (by intro c hc; rw [List.mem_singleton.1 hc]; exact hl) p2 hop2
      have hop3 := hop2.congr hr3.same
      have hs4 : SameLine p3.st (cb.foldl (pageInnerStep e.index (parsePageNumber env e.text - 1)) p3).st l :=
        pageInner_same cb (fun c hc => (hcbls c hc).1) p3 hop3 hl (fun c hc e => by have := (hcbls c hc).2; omega)
      have hr4 : Relabels ls p3.st (cb.foldl (pageInnerStep e.index (parsePageNumber env e.text - 1)) p3).st :=
        pageInner_relabels cb (fun c hc => (hcbls c hc).1) p3 hop3
      have hs5 := pageOuter_right (ls := ls) (l := l) (fun c hc => (hX c hc).1) (Eb.map (fun l => (parsePageNumber env l.text, l)))
        ⟨(cb.foldl (pageInnerStep e.index (parsePageNumber env e.text - 1)) p3).st, e.index, parsePageNumber env e.text - 1 + 1⟩
        (hop3.congr hr4.same) hl (heb e List.mem_cons_self) (by
          intro x hx
          obtain ⟨y, hy, rfl⟩ := List.mem_map.1 hx
          exact heb y (List.mem_cons_of_mem _ hy))
      have hs45 := hs4.trans hs5
      -- the line itself
      have hel := heb e List.mem_cons_self
      have hml : p1.minLine ≤ l.index := by
        by_cases h0 : Ea = []
        · rw [h0] at hp1; rw [← hp1]; exact Nat.zero_le _
        · obtain ⟨E', x, rfl⟩ : ∃ E' x, Ea = E' ++ [x] := ⟨_, _, (List.dropLast_concat_getLast h0).symm⟩
          rw [← hp1, (pageOuter_concat cands E' x ⟨st, 0, 1⟩).1]
          exact Nat.le_of_lt (hEalt x (by simp))
      constructor
      · rintro ⟨_, _, e', n, he', hn, hn1, hn2⟩
        have he'' : (b.filter (fun l => st.tag l.index = some segPage)).head? = some e' := he'
        rw [hnext, List.head?_cons] at he''
        obtain rfl := Option.some.inj he''
        have := expected_fun hn hexp2
        have hn1' : n ≤ parsePageNumber env l.text := hn1
        have hn2' : parsePageNumber env l.text < parsePageNumber env e.text := hn2
        have e3 : p3.st = p2.st.set l (some segPage) := by
          rw [← hp3]
          unfold pageInnerStep
          simp only []
          rw [if_neg (by omega), if_neg (by omega), if_neg (by omega), if_neg (by omega)]
        have ht : p3.st.tag l.index = some segPage := by rw [e3, set_tag, if_pos rfl]
        have hsh : Shown p3.st.doc l (p3.st.tag l.index) := by rw [ht, e3]; exact set_shown _ _ _
        have := Shown.congr hs45 hsh
        rw [hs45.1, ht] at this
        exact ⟨by rw [hs45.1, ht], this⟩
      · intro hn
        have e3 : p3.st = p2.st := by
          rw [← hp3]
          unfold pageInnerStep
          simp only []
          rw [if_neg (by omega), if_neg (by omega)]
          by_cases h1 : parsePageNumber env l.text < p2.minPage
          · rw [if_pos h1]
          · rw [if_neg h1]
            by_cases h2 : parsePageNumber env e.text - 1 < parsePageNumber env l.text
            · rw [if_pos h2]
            · exfalso
              apply hn
              refine ⟨hcand'.1, hcand'.2, e, _, ?_, hexp2, ?_, ?_⟩
              · show (b.filter (fun l => st.tag l.index = some segPage)).head? = some e
                rw [hnext]; rfl
              · show _ ≤ parsePageNumber env l.text
                omega
              · show parsePageNumber env l.text < parsePageNumber env e.text
                omega
        have hs3 : SameLine p2.st p3.st l := by rw [e3]; exact ⟨rfl, fun _ _ => rfl⟩
        exact ((hleft.trans hs2).trans hs3).trans hs45
  · refine ⟨?_, fun _ => pageOuter_not (fun c hc => (hX c hc).1) E ⟨st, 0, 1⟩ ho hl ?_⟩
    · rintro ⟨h1, h2, _⟩
      exact absurd (by rw [Bool.and_eq_true, Bool.not_eq_true', isPageNumberText_spec henv]; exact ⟨h1, h2⟩) hcand
    · intro c hc e
      obtain ⟨h1, h2⟩ := hX c hc
      rw [ho.inj h1 hl e] at h2
      exact hcand h2

end Verif
