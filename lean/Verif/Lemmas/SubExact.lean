/-
Lemmas about exactly which preserved sub tags are removed while a document is annotated.
-/
import Verif.Lemmas.SubKept
import Verif.Lemmas.Labels

namespace Verif

/-- Lines of a document: tokens on a line have the same line. -/
structure LinesApart (b : Doc) : Prop where
  same : ∀ i j, j ∈ b.lineOf i → b.lineOf j = b.lineOf i
  self : ∀ i j, j ∈ b.lineOf i → i ∈ b.lineOf i

/-- Token `j` has got a new sub tag, with a value other than that of the preserved one. -/
def Replaced (b d : Doc) (j : Nat) : Prop :=
  (b.tok j).isSpace = false ∧ truthy (stripTagPrefix (b.getAttr j keptAttr)) = true ∧ truthy (d.getSubTag j) = true ∧
    stripTagPrefix (d.getSubTag j) ≠ stripTagPrefix (b.getAttr j keptAttr)

/-- The preserved sub tag of `i` is removed: a token on the same line with the same one has got another. -/
def LosesSub (b d : Doc) (i : Nat) : Prop :=
  ∃ j, i ∈ b.lineOf j ∧ Replaced b d j ∧ stripTagPrefix (b.getAttr i keptAttr) = stripTagPrefix (b.getAttr j keptAttr)

structure SubExact (b d : Doc) : Prop where
  line : d.lineOf = b.lineOf
  space : ∀ j, (d.tok j).isSpace = (b.tok j).isSpace
  lost : ∀ i, LosesSub b d i → d.getAttr i keptAttr = none
  kept : ∀ i, ¬ LosesSub b d i → d.getAttr i keptAttr = b.getAttr i keptAttr

theorem SubExact.other {b d d' : Doc} (h : SubExact b d) (hs : SameBut d d') (h1 : ∀ i, d'.getAttr i keptAttr = d.getAttr i keptAttr)
    (h2 : ∀ j, Replaced b d' j ↔ Replaced b d j) : SubExact b d' := by
  have hl : ∀ i, LosesSub b d' i ↔ LosesSub b d i := by
    intro i
    constructor
    · rintro ⟨j, hj, hr, e⟩; exact ⟨j, hj, (h2 j).1 hr, e⟩
    · rintro ⟨j, hj, hr, e⟩; exact ⟨j, hj, (h2 j).2 hr, e⟩
  refine ⟨hs.lineOf.trans h.line, fun j => (hs.isSpace j).trans (h.space j), fun i hi => ?_, fun i hi => ?_⟩
  · rw [h1]; exact h.lost i ((hl i).1 hi)
  · rw [h1]; exact h.kept i (fun hc => hi ((hl i).2 hc))

theorem SubExact.setMain {b d : Doc} (h : SubExact b d) (i : Nat) (t : Option Str) : SubExact b (d.setTagOnly i t) := by
  have hsub : ∀ j, (d.setTagOnly i t).getSubTag j = d.getSubTag j := by
    intro j
    show (d.setAttr i _ t).getAttr j _ = _
    rw [getAttr_setAttr, if_neg (fun e => absurd e.2 (by decide))]
    rfl
  refine h.other (sameBut_setTagOnly _ _ _ _ _) (fun j => ?_) (fun j => ?_)
  · show (d.setAttr i _ t).getAttr j _ = _
    rw [getAttr_setAttr, if_neg (fun e => absurd e.2 (by decide))]
  · unfold Replaced; rw [hsub]

/-- Setting a sub tag of a token which has none, or one with the same value. -/
theorem SubExact.setSub {b d : Doc} (hb : LinesApart b) (h : SubExact b d) (i : Nat) {t : Option Str} (ht : truthy t = true)
    (hc : truthy (d.getSubTag i) = false ∨ (truthy (d.getSubTag i) = true ∧ stripTagPrefix (d.getSubTag i) = stripTagPrefix t)) :
    SubExact b (d.setSubTag i t) := by
  have hkeep : ∀ j, (d.setTagOnly i t (some subLevel)).getAttr j keptAttr = d.getAttr j keptAttr := by
    intro j
    show (d.setAttr i _ t).getAttr j _ = _
    rw [getAttr_setAttr, if_neg (fun e => absurd e.2 (by decide))]
  have hother : ∀ j, j ≠ i → (Replaced b (d.setTagOnly i t (some subLevel)) j ↔ Replaced b d j) := by
    intro j hj
    unfold Replaced
    rw [getSubTag_setSubOnly, if_neg hj]
  have hsame := sameBut_setTagOnly d i t (some subLevel) none
  -- nothing is removed and no token is replaced
  have stay : (Replaced b (d.setTagOnly i t (some subLevel)) i ↔ Replaced b d i) → SubExact b (d.setTagOnly i t (some subLevel)) := by
    intro hi
    refine h.other hsame hkeep (fun j => ?_)
    by_cases e : j = i
    · subst e; exact hi
    · exact hother j e
  have hnew : Replaced b (d.setTagOnly i t (some subLevel)) i ↔ (b.tok i).isSpace = false ∧
      truthy (stripTagPrefix (b.getAttr i keptAttr)) = true ∧ stripTagPrefix t ≠ stripTagPrefix (b.getAttr i keptAttr) := by
    unfold Replaced
    rw [getSubTag_setSubOnly, if_pos rfl]
    exact ⟨fun ⟨a, b, _, c⟩ => ⟨a, b, c⟩, fun ⟨a, b, c⟩ => ⟨a, b, ht, c⟩⟩
  have htsome : stripTagPrefix t ≠ none := by
    cases t with
    | none => cases ht
    | some x =>
      unfold stripTagPrefix splitTagPrefix
      split
      · next e => cases e
      · repeat' split
        all_goals simp
  unfold Doc.setSubTag Doc.setTag
  simp only
  split
  · next hsp =>
    refine stay ⟨fun hr => ?_, fun hr => ?_⟩
    · have := hr.1; rw [← h.space, hsp] at this; cases this
    · have := hr.1; rw [← h.space, hsp] at this; cases this
  · next hsp =>
    have hsp' : (b.tok i).isSpace = false := by rw [← h.space]; simpa using hsp
    rcases hc with hf | ⟨htr, heq⟩
    · have hprev : d.getTagOrPreserved i (some subLevel) = d.getAttr i keptAttr := by
        unfold Doc.getTagOrPreserved pyOr
        have : d.getTag i (some subLevel) = d.getSubTag i := rfl
        rw [this, hf]
        rfl
      have hnr : ¬ Replaced b d i := fun hr => by rw [hr.2.2.1] at hf; cases hf
      split
      · next hne =>
        rw [if_neg (by intro e; cases e)]
        rw [hprev] at hne
        -- the preserved sub tags after that
        have hattr : ∀ k, ((d.setTagOnly i t (some subLevel)).clearSamePreserved i (some subLevel)).getAttr k keptAttr =
            if k ∈ b.lineOf i ∧ truthy (stripTagPrefix (d.getAttr i keptAttr)) = true ∧
              stripTagPrefix (d.getAttr k keptAttr) = stripTagPrefix (d.getAttr i keptAttr) then none else d.getAttr k keptAttr := by
          intro k
          rw [getAttr_clearSamePreserved, hkeep, hkeep]
          have e1 : (d.setTagOnly i t (some subLevel)).lineOf = b.lineOf := h.line
          rw [e1]
          by_cases hcc : k ∈ b.lineOf i ∧ truthy (stripTagPrefix (d.getAttr i keptAttr)) = true ∧
              stripTagPrefix (d.getAttr k keptAttr) = stripTagPrefix (d.getAttr i keptAttr)
          · rw [if_pos hcc, if_pos ⟨hcc.1, rfl, hcc.2⟩]
          · rw [if_neg hcc, if_neg (fun ⟨x, _, y⟩ => hcc ⟨x, y⟩)]
        have hsub : ∀ k, ((d.setTagOnly i t (some subLevel)).clearSamePreserved i (some subLevel)).getSubTag k =
            (d.setTagOnly i t (some subLevel)).getSubTag k := by
          intro k
          show ((d.setTagOnly i t (some subLevel)).clearSamePreserved i (some subLevel)).getAttr k _ = _
          rw [getAttr_clearSamePreserved, if_neg (fun e => absurd e.2.1 (by decide))]
          rfl
        have hsame2 : SameBut d ((d.setTagOnly i t (some subLevel)).clearSamePreserved i (some subLevel)) :=
          hsame.trans (sameBut_clearSamePreserved _ _ _)
        generalize hd2 : (d.setTagOnly i t (some subLevel)).clearSamePreserved i (some subLevel) = d2 at hattr hsub hsame2
        have hrep : ∀ j, Replaced b d2 j ↔ Replaced b (d.setTagOnly i t (some subLevel)) j := by
          intro j; unfold Replaced; rw [hsub]
        have hmono : ∀ k, LosesSub b d k → LosesSub b d2 k := by
          rintro k ⟨j, hj, hr, e⟩
          have hji : j ≠ i := fun e => hnr (e ▸ hr)
          exact ⟨j, hj, (hrep j).2 ((hother j hji).2 hr), e⟩
        have hinv : ∀ k, LosesSub b d2 k → LosesSub b d k ∨ (k ∈ b.lineOf i ∧ Replaced b d2 i ∧
            stripTagPrefix (b.getAttr k keptAttr) = stripTagPrefix (b.getAttr i keptAttr)) := by
          rintro k ⟨j, hj, hr, e⟩
          by_cases hji : j = i
          · subst hji; exact .inr ⟨hj, hr, e⟩
          · exact .inl ⟨j, hj, (hother j hji).1 ((hrep j).1 hr), e⟩
        refine ⟨hsame2.lineOf.trans h.line, fun j => (hsame2.isSpace j).trans (h.space j), fun k hk => ?_, fun k hk => ?_⟩
        · rw [hattr]
          split
          · rfl
          · next hno =>
            rcases hinv k hk with hk | ⟨hki, hri, hek⟩
            · exact h.lost k hk
            · by_cases hli : LosesSub b d i
              · obtain ⟨j, hj, hr, e⟩ := hli
                refine h.lost k ⟨j, ?_, hr, hek.trans e⟩
                rw [← hb.same j i hj]; exact hki
              · have hlk : ¬ LosesSub b d k := by
                  rintro ⟨j, hj, hr, e⟩
                  refine hli ⟨j, ?_, hr, hek.symm.trans e⟩
                  rw [← hb.same j k hj, hb.same i k hki]
                  exact hb.self i k hki
                refine absurd ⟨hki, ?_, ?_⟩ hno
                · rw [h.kept i hli]; exact hri.2.1
                · rw [h.kept i hli, h.kept k hlk]; exact hek
        · have hlk : ¬ LosesSub b d k := fun hc => hk (hmono k hc)
          rw [hattr]
          split
          · next hcc =>
            obtain ⟨hki, htri, hek⟩ := hcc
            have hli : ¬ LosesSub b d i := by
              intro hc
              rw [h.lost i hc] at htri
              cases htri
            rw [h.kept i hli] at htri hek hne
            rw [h.kept k hlk] at hek
            exact absurd ⟨i, hki, (hrep i).2 (hnew.2 ⟨hsp', htri, hne⟩), hek⟩ hk
          · exact h.kept k hlk
      · next heq =>
        have heq : stripTagPrefix t = stripTagPrefix (d.getAttr i keptAttr) := by
          rw [← hprev]; exact Classical.not_not.1 heq
        refine stay ⟨fun hr => ?_, fun hr => absurd hr hnr⟩
        by_cases hli : LosesSub b d i
        · rw [h.lost i hli] at heq
          exact absurd heq htsome
        · rw [h.kept i hli] at heq
          exact absurd heq (hnew.1 hr).2.2
    · have hprev : d.getTagOrPreserved i (some subLevel) = d.getSubTag i := by
        unfold Doc.getTagOrPreserved pyOr
        have : d.getTag i (some subLevel) = d.getSubTag i := rfl
        rw [this, htr]
        rfl
      rw [if_neg (by rw [hprev, heq]; exact fun e => e rfl)]
      refine stay (hnew.trans ?_)
      unfold Replaced
      rw [heq]
      exact ⟨fun ⟨a, b, c⟩ => ⟨a, b, htr, c⟩, fun ⟨a, b, _, c⟩ => ⟨a, b, c⟩⟩

theorem strip_prefixed (cfg : MatchCfg) (n : Str) (k k' : Nat) :
    stripTagPrefix (addTagPrefix (some n) (indexPrefix cfg k)) = stripTagPrefix (addTagPrefix (some n) (indexPrefix cfg k')) := by
  unfold indexPrefix
  split
  · have hb := strip_addB (some n)
    have hi := strip_addI (some n)
    split <;> split <;> simp [hb, hi]
  · rfl

theorem subExact_subTagTokens {b : Doc} (hb : LinesApart b) (cfg : MatchCfg) {name : Str} (hn : name ≠ []) (is : List Nat) :
    ∀ (d : Doc) (k : Nat), (∀ i ∈ is, truthy (d.getSubTag i) = false ∨ (truthy (d.getSubTag i) = true ∧
        stripTagPrefix (d.getSubTag i) = stripTagPrefix (addTagPrefix (some name) (indexPrefix cfg 0)))) →
      SubExact b d → SubExact b (subTagTokens cfg name d k is) := by
  induction is with
  | nil => exact fun d k _ h => h
  | cons i is ih =>
    intro d k hall h
    unfold subTagTokens
    have ht := truthy_prefixed cfg hn k
    refine ih _ _ (fun j hj => ?_) (h.setSub hb i ht ?_)
    · have e : (d.setSubTag i (addTagPrefix (some name) (indexPrefix cfg k))).getSubTag j =
          if j = i then addTagPrefix (some name) (indexPrefix cfg k) else d.getSubTag j := by
        rw [← getSubTag_setSubOnly]
        unfold Doc.setSubTag Doc.setTag
        simp only
        split
        · rfl
        · split
          · rw [if_neg (by intro e; cases e)]
            show (Doc.clearSamePreserved _ i (some subLevel)).getAttr j _ = _
            rw [getAttr_clearSamePreserved, if_neg (fun e => absurd e.2.1 (by decide))]
            rfl
          · rfl
      rw [e]
      split
      · exact .inr ⟨ht, strip_prefixed cfg name k 0⟩
      · exact hall j (List.mem_cons_of_mem _ hj)
    · rcases hall i List.mem_cons_self with hf | ⟨hf, e⟩
      · exact .inl hf
      · exact .inr ⟨hf, e.trans (strip_prefixed cfg name 0 k)⟩

theorem subExact_simple (env : MatchEnv) (cfg : MatchCfg) (targets : List Target) (hp : cfg.preserveSubAnnotations = true)
    (he : cfg.extendToLineEnabled = false) (hn : ∀ t ∈ targets, ∀ s ∈ t.subs, s.1 ≠ []) {b d d' : Doc} (hb : LinesApart b)
    (h : simpleAnnotate env cfg targets d = .ok d') (hd : SubExact b d) : SubExact b d' := by
  refine invariant_simple (I := fun d => SubExact b d) env targets (fun t ht => ?_) he d d' h hd
  refine ⟨fun _ d is _ hd => tagTokens_each (I := fun d => SubExact b d) (fun d i k hd => ?_) is d 0 hd,
    fun _ s hs d is hall hd => ?_⟩
  · rw [if_pos hp]
    exact hd.setMain _ _
  · exact subExact_subTagTokens hb cfg (hn t ht s hs) is d 0 (fun i hi => .inl (hall i hi)) hd

theorem subExact_foldl {β : Type} (f : Doc → β → Doc) (b : Doc) (hf : ∀ d x, SubExact b d → SubExact b (f d x))
    (l : List β) : ∀ d, SubExact b d → SubExact b (l.foldl f d) := by
  induction l with
  | nil => exact fun d h => h
  | cons x l ih => exact fun d h => ih _ (hf d x h)

theorem subExact_matchOrSubTags (env : ToolEnv) (cfg : MatchCfg) (targets : List Target) (seg : Bool) (hp : cfg.preserveSubAnnotations = true)
    (he : cfg.extendToLineEnabled = false) (hn : ∀ t ∈ targets, ∀ s ∈ t.subs, s.1 ≠ []) {b d d' : Doc} (hb : LinesApart b)
    (h : matchOrSubTags env cfg targets seg d = .ok d') (hd : SubExact b d) : SubExact b d' := by
  unfold matchOrSubTags at h
  rw [hp] at h
  cases seg with
  | true => exact subExact_simple _ _ _ hp he hn hb h hd
  | false =>
    simp only [Bool.false_eq_true, if_false] at h
    unfold subTagOnlyAnnotate at h
    simp only at h
    split at h
    · cases h
    · next d2 hd2 =>
      obtain rfl := Except.ok.inj h
      refine subExact_foldl _ b (fun d i hd => hd.setMain _ _) _ _ ?_
      refine subExact_simple _ _ _ rfl rfl hn hb hd2 ?_
      exact subExact_foldl (fun d i => let d' := d.setTagOnly i none; if true = true then d' else d'.clearPreservedSubTag i) b
        (fun d i hd => hd.setMain _ _) d.allTokens d hd

end Verif
