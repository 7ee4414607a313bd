/-
Lemmas about exactly which preserved tags are removed while a document is annotated.
-/
import Verif.Lemmas.SubExact
import Verif.Lemmas.SubTools

namespace Verif

/-- The name of the attribute with the preserved tag. -/
def keptMainAttr : Str := scopedAttribName preservedTagAttribName none none

theorem getTag_setMainOnly (d : Doc) (i j : Nat) (t : Option Str) :
    (d.setTagOnly i t).getTag j = if j = i then t else d.getTag j := by
  show (d.setAttr i _ t).getAttr j _ = _
  rw [getAttr_setAttr]
  by_cases h : j = i <;> simp [h] <;> rfl

/-- Token `j` has got a new tag, with a value other than that of the preserved one. -/
def MainReplaced (b d : Doc) (j : Nat) : Prop :=
  (b.tok j).isSpace = false ∧ truthy (stripTagPrefix (b.getAttr j keptMainAttr)) = true ∧ truthy (d.getTag j) = true ∧
    stripTagPrefix (d.getTag j) ≠ stripTagPrefix (b.getAttr j keptMainAttr)

/-- The preserved tag of `i` is removed: a token on the same line with the same one has got another. -/
def LosesMain (b d : Doc) (i : Nat) : Prop :=
  ∃ j, i ∈ b.lineOf j ∧ MainReplaced b d j ∧ stripTagPrefix (b.getAttr i keptMainAttr) = stripTagPrefix (b.getAttr j keptMainAttr)

structure MainExact (b d : Doc) : Prop where
  line : d.lineOf = b.lineOf
  space : ∀ j, (d.tok j).isSpace = (b.tok j).isSpace
  lost : ∀ i, LosesMain b d i → d.getAttr i keptMainAttr = none
  kept : ∀ i, ¬ LosesMain b d i → d.getAttr i keptMainAttr = b.getAttr i keptMainAttr

theorem MainExact.other {b d d' : Doc} (h : MainExact b d) (hs : SameBut d d') (h1 : ∀ i, d'.getAttr i keptMainAttr = d.getAttr i keptMainAttr)
    (h2 : ∀ j, MainReplaced b d' j ↔ MainReplaced b d j) : MainExact b d' := by
  have hl : ∀ i, LosesMain b d' i ↔ LosesMain b d i := by
    intro i
    constructor
    · rintro ⟨j, hj, hr, e⟩; exact ⟨j, hj, (h2 j).1 hr, e⟩
    · rintro ⟨j, hj, hr, e⟩; exact ⟨j, hj, (h2 j).2 hr, e⟩
  refine ⟨hs.lineOf.trans h.line, fun j => (hs.isSpace j).trans (h.space j), fun i hi => ?_, fun i hi => ?_⟩
  · rw [h1]; exact h.lost i ((hl i).1 hi)
  · rw [h1]; exact h.kept i (fun hc => hi ((hl i).2 hc))

theorem MainExact.subOnly {b d d' : Doc} (h : MainExact b d) (hs : SubOnly d d') : MainExact b d' := by
  refine h.other hs.same (fun i => hs.attrs i _ (by decide) (by decide)) (fun j => ?_)
  have : d'.getTag j = d.getTag j := hs.attrs j _ (by decide) (by decide)
  unfold MainReplaced; rw [this]

/-- Setting a tag of a token which has none, or one with the same value. -/
theorem MainExact.setTag {b d : Doc} (hb : LinesApart b) (h : MainExact b d) (i : Nat) {t : Option Str} (ht : truthy t = true)
    (hc : truthy (d.getTag i) = false ∨ (truthy (d.getTag i) = true ∧ stripTagPrefix (d.getTag i) = stripTagPrefix t)) :
    MainExact b (d.setTag i t) := by
  have hkeep : ∀ j, (d.setTagOnly i t).getAttr j keptMainAttr = d.getAttr j keptMainAttr := by
    intro j
    show (d.setAttr i _ t).getAttr j _ = _
    rw [getAttr_setAttr, if_neg (fun e => absurd e.2 (by decide))]
  have hother : ∀ j, j ≠ i → (MainReplaced b (d.setTagOnly i t) j ↔ MainReplaced b d j) := by
    intro j hj
    unfold MainReplaced
    rw [getTag_setMainOnly, if_neg hj]
  have hsame := sameBut_setTagOnly d i t none none
  -- nothing is removed and no token is replaced
  have stay : (MainReplaced b (d.setTagOnly i t) i ↔ MainReplaced b d i) → MainExact b (d.setTagOnly i t) := by
    intro hi
    refine h.other hsame hkeep (fun j => ?_)
    by_cases e : j = i
    · subst e; exact hi
    · exact hother j e
  have hnew : MainReplaced b (d.setTagOnly i t) i ↔ (b.tok i).isSpace = false ∧
      truthy (stripTagPrefix (b.getAttr i keptMainAttr)) = true ∧ stripTagPrefix t ≠ stripTagPrefix (b.getAttr i keptMainAttr) := by
    unfold MainReplaced
    rw [getTag_setMainOnly, if_pos rfl]
    exact ⟨fun ⟨a, b, _, c⟩ => ⟨a, b, c⟩, fun ⟨a, b, c⟩ => ⟨a, b, ht, c⟩⟩
  have htsome : stripTagPrefix t ≠ none := by
    cases t with
    | none => cases ht
    | some x =>
      unfold stripTagPrefix splitTagPrefix
      split
      · next e => cases e
      · repeat' split
        all_goals simp
  unfold Doc.setTag
  simp only
  split
  · next hsp =>
    refine stay ⟨fun hr => ?_, fun hr => ?_⟩
    · have := hr.1; rw [← h.space, hsp] at this; cases this
    · have := hr.1; rw [← h.space, hsp] at this; cases this
  · next hsp =>
    have hsp' : (b.tok i).isSpace = false := by rw [← h.space]; simpa using hsp
    rcases hc with hf | ⟨htr, heq⟩
    · have hprev : d.getTagOrPreserved i = d.getAttr i keptMainAttr := by
        unfold Doc.getTagOrPreserved pyOr
        have : d.getTag i = d.getTag i := rfl
        rw [this, hf]
        rfl
      have hnr : ¬ MainReplaced b d i := fun hr => by rw [hr.2.2.1] at hf; cases hf
      split
      · next hne =>
        rw [if_pos trivial]
        rw [hprev] at hne
        -- the preserved tags after that
        have hattr : ∀ k, (((d.setTagOnly i t).clearSamePreserved i none).clearSamePreserved i (some subLevel)).getAttr k keptMainAttr =
            if k ∈ b.lineOf i ∧ truthy (stripTagPrefix (d.getAttr i keptMainAttr)) = true ∧
              stripTagPrefix (d.getAttr k keptMainAttr) = stripTagPrefix (d.getAttr i keptMainAttr) then none else d.getAttr k keptMainAttr := by
          intro k
          rw [getAttr_clearSamePreserved, if_neg (fun e => absurd e.2.1 (by decide)), getAttr_clearSamePreserved, hkeep, hkeep]
          have e1 : (d.setTagOnly i t).lineOf = b.lineOf := h.line
          rw [e1]
          by_cases hcc : k ∈ b.lineOf i ∧ truthy (stripTagPrefix (d.getAttr i keptMainAttr)) = true ∧
              stripTagPrefix (d.getAttr k keptMainAttr) = stripTagPrefix (d.getAttr i keptMainAttr)
          · rw [if_pos hcc, if_pos ⟨hcc.1, rfl, hcc.2⟩]
          · rw [if_neg hcc, if_neg (fun ⟨x, _, y⟩ => hcc ⟨x, y⟩)]
        have hsub : ∀ k, (((d.setTagOnly i t).clearSamePreserved i none).clearSamePreserved i (some subLevel)).getTag k =
            (d.setTagOnly i t).getTag k := by
          intro k
          show (((d.setTagOnly i t).clearSamePreserved i none).clearSamePreserved i (some subLevel)).getAttr k _ = _
          rw [getAttr_clearSamePreserved, if_neg (fun e => absurd e.2.1 (by decide)), getAttr_clearSamePreserved,
            if_neg (fun e => absurd e.2.1 (by decide))]
          rfl
        have hsame2 : SameBut d (((d.setTagOnly i t).clearSamePreserved i none).clearSamePreserved i (some subLevel)) :=
          (hsame.trans (sameBut_clearSamePreserved _ _ _)).trans (sameBut_clearSamePreserved _ _ _)
        generalize hd2 : ((d.setTagOnly i t).clearSamePreserved i none).clearSamePreserved i (some subLevel) = d2 at hattr hsub hsame2
        have hrep : ∀ j, MainReplaced b d2 j ↔ MainReplaced b (d.setTagOnly i t) j := by
          intro j; unfold MainReplaced; rw [hsub]
        have hmono : ∀ k, LosesMain b d k → LosesMain b d2 k := by
          rintro k ⟨j, hj, hr, e⟩
          have hji : j ≠ i := fun e => hnr (e ▸ hr)
          exact ⟨j, hj, (hrep j).2 ((hother j hji).2 hr), e⟩
        have hinv : ∀ k, LosesMain b d2 k → LosesMain b d k ∨ (k ∈ b.lineOf i ∧ MainReplaced b d2 i ∧
            stripTagPrefix (b.getAttr k keptMainAttr) = stripTagPrefix (b.getAttr i keptMainAttr)) := by
          rintro k ⟨j, hj, hr, e⟩
          by_cases hji : j = i
          · subst hji; exact .inr ⟨hj, hr, e⟩
          · exact .inl ⟨j, hj, (hother j hji).1 ((hrep j).1 hr), e⟩
        refine ⟨hsame2.lineOf.trans h.line, fun j => (hsame2.isSpace j).trans (h.space j), fun k hk => ?_, fun k hk => ?_⟩
        · rw [hattr]
          split
          · rfl
          · next hno =>
            rcases hinv k hk with hk | ⟨hki, hri, hek⟩
            · exact h.lost k hk
            · by_cases hli : LosesMain b d i
              · obtain ⟨j, hj, hr, e⟩ := hli
                refine h.lost k ⟨j, ?_, hr, hek.trans e⟩
                rw [← hb.same j i hj]; exact hki
              · have hlk : ¬ LosesMain b d k := by
                  rintro ⟨j, hj, hr, e⟩
                  refine hli ⟨j, ?_, hr, hek.symm.trans e⟩
                  rw [← hb.same j k hj, hb.same i k hki]
                  exact hb.self i k hki
                refine absurd ⟨hki, ?_, ?_⟩ hno
                · rw [h.kept i hli]; exact hri.2.1
                · rw [h.kept i hli, h.kept k hlk]; exact hek
        · have hlk : ¬ LosesMain b d k := fun hc => hk (hmono k hc)
          rw [hattr]
          split
          · next hcc =>
            obtain ⟨hki, htri, hek⟩ := hcc
            have hli : ¬ LosesMain b d i := by
              intro hc
              rw [h.lost i hc] at htri
              cases htri
            rw [h.kept i hli] at htri hek hne
            rw [h.kept k hlk] at hek
            exact absurd ⟨i, hki, (hrep i).2 (hnew.2 ⟨hsp', htri, hne⟩), hek⟩ hk
          · exact h.kept k hlk
      · next heq =>
        have heq : stripTagPrefix t = stripTagPrefix (d.getAttr i keptMainAttr) := by
          rw [← hprev]; exact Classical.not_not.1 heq
        refine stay ⟨fun hr => ?_, fun hr => absurd hr hnr⟩
        by_cases hli : LosesMain b d i
        · rw [h.lost i hli] at heq
          exact absurd heq htsome
        · rw [h.kept i hli] at heq
          exact absurd heq (hnew.1 hr).2.2
    · have hprev : d.getTagOrPreserved i = d.getTag i := by
        unfold Doc.getTagOrPreserved pyOr
        have : d.getTag i = d.getTag i := rfl
        rw [this, htr]
        rfl
      rw [if_neg (by rw [hprev, heq]; exact fun e => e rfl)]
      refine stay (hnew.trans ?_)
      unfold MainReplaced
      rw [heq]
      exact ⟨fun ⟨a, b, c⟩ => ⟨a, b, htr, c⟩, fun ⟨a, b, _, c⟩ => ⟨a, b, c⟩⟩

theorem mainExact_tagTokens {b : Doc} (hb : LinesApart b) (cfg : MatchCfg) (hp : cfg.preserveSubAnnotations = false)
    {name : Str} (hn : name ≠ []) (is : List Nat) :
    ∀ (d : Doc) (k : Nat), (∀ i ∈ is, truthy (d.getTag i) = false ∨ (truthy (d.getTag i) = true ∧
        stripTagPrefix (d.getTag i) = stripTagPrefix (addTagPrefix (some name) (indexPrefix cfg 0)))) →
      MainExact b d → MainExact b (tagTokens cfg name d k is) := by
  induction is with
  | nil => exact fun d k _ h => h
  | cons i is ih =>
    intro d k hall h
    unfold tagTokens
    simp only [hp, Bool.false_eq_true, if_false]
    have ht := truthy_prefixed cfg hn k
    refine ih _ _ (fun j hj => ?_) (h.setTag hb i ht ?_)
    · have e : (d.setTag i (addTagPrefix (some name) (indexPrefix cfg k))).getTag j =
          if j = i then addTagPrefix (some name) (indexPrefix cfg k) else d.getTag j := by
        rw [← getTag_setMainOnly]
        unfold Doc.setTag
        simp only
        split
        · rfl
        · split
          · rw [if_pos trivial]
            show (Doc.clearSamePreserved _ i (some subLevel)).getAttr j _ = _
            rw [getAttr_clearSamePreserved, if_neg (fun e => absurd e.2.1 (by decide)), getAttr_clearSamePreserved,
              if_neg (fun e => absurd e.2.1 (by decide))]
            rfl
          · rfl
      rw [e]
      split
      · exact .inr ⟨ht, strip_prefixed cfg name k 0⟩
      · exact hall j (List.mem_cons_of_mem _ hj)
    · rcases hall i List.mem_cons_self with hf | ⟨hf, e⟩
      · exact .inl hf
      · exact .inr ⟨hf, e.trans (strip_prefixed cfg name 0 k)⟩

theorem mainExact_simple (env : MatchEnv) (cfg : MatchCfg) (targets : List Target) (hp : cfg.preserveSubAnnotations = false)
    (he : cfg.extendToLineEnabled = false) (hn : ∀ t ∈ targets, t.name ≠ []) {b d d' : Doc} (hb : LinesApart b)
    (h : simpleAnnotate env cfg targets d = .ok d') (hd : MainExact b d) : MainExact b d' := by
  refine invariant_simple (I := fun d => MainExact b d) env targets (fun t ht => ?_) he d d' h hd
  refine ⟨fun _ d is hall hd => ?_, fun _ s hs d is _ hd => hd.subOnly (subOnly_subTagTokens cfg s.1 is d 0)⟩
  exact mainExact_tagTokens hb cfg hp (hn t ht) is d 0 (fun i hi => .inl (hall i hi)) hd

theorem proper_indexTag (cfg : MatchCfg) {name : Str} (hn : Spec.ProperTag (some name)) (k : Nat) :
    Spec.ProperTag (addTagPrefix (some name) (indexPrefix cfg k)) := (indexTag_value cfg name k hn).1

theorem proper_annotateLoop (env : MatchEnv) (cfg : MatchCfg) (targets : List Target)
    (hn : ∀ t ∈ targets, Spec.ProperTag (some t.name)) (fuel : Nat) {d d' : Doc} {left : List Target}
    (h : annotateLoop env cfg fuel d targets = .ok (some (d', left))) (hd : ∀ i, Spec.ProperTag (d.getTag i)) :
    ∀ i, Spec.ProperTag (d'.getTag i) := by
  refine invariant_annotateLoop (cfg := cfg) (I := fun d => ∀ i, Spec.ProperTag (d.getTag i)) env _ _ _ _ (fun t ht => ?_) h hd
  refine ⟨fun _ d is _ hd => tagTokens_each (I := fun d => ∀ i, Spec.ProperTag (d.getTag i)) (fun d i k hd => ?_) is d 0 hd,
    fun _ s hs d is _ hd i => ?_⟩
  · intro j
    split
    · rw [getTag_setMainOnly]
      split
      · exact proper_indexTag cfg (hn t ht) k
      · exact hd j
    · rw [getTag_setTag]
      split
      · exact proper_indexTag cfg (hn t ht) k
      · exact hd j
  · have : (subTagTokens cfg s.1 d 0 is).getTag i = d.getTag i :=
      (subOnly_subTagTokens cfg s.1 is d 0).attrs i _ (by decide) (by decide)
    rw [this]
    exact hd i

theorem mainExact_setTags {b : Doc} (hb : LinesApart b) : ∀ (ps : List (Nat × Option Str)) (d : Doc), (ps.map (·.1)).Nodup →
    (∀ p ∈ ps, truthy p.2 = true → truthy (d.getTag p.1) = false ∨
      (truthy (d.getTag p.1) = true ∧ stripTagPrefix (d.getTag p.1) = stripTagPrefix p.2)) →
    MainExact b d → MainExact b (setTags d ps) := by
  intro ps
  induction ps with
  | nil => exact fun d _ _ h => h
  | cons p ps ih =>
    intro d hnd hall h
    rw [List.map_cons, List.nodup_cons] at hnd
    have e : setTags d (p :: ps) = setTags (if truthy p.2 then d.setTag p.1 p.2 else d) ps := rfl
    rw [e]
    split
    · next ht =>
      refine ih _ hnd.2 (fun q hq hqt => ?_) (h.setTag hb p.1 ht (hall p List.mem_cons_self ht))
      have hne : q.1 ≠ p.1 := fun e => hnd.1 (e ▸ List.mem_map_of_mem hq)
      rw [getTag_setTag, if_neg hne]
      exact hall q (List.mem_cons_of_mem _ hq) hqt
    · exact ih _ hnd.2 (fun q hq => hall q (List.mem_cons_of_mem _ hq)) h

theorem mainExact_extendLines {b : Doc} (hb : LinesApart b) (ecfg : ExtendCfg) : ∀ (ls : List Line) (d : Doc),
    (ls.flatMap (·.nonSpace)).Nodup → (∀ i, Spec.ProperTag (d.getTag i)) → MainExact b d →
    MainExact b (ls.foldl (extendLine ecfg) d) := by
  intro ls
  induction ls with
  | nil => exact fun d _ _ h => h
  | cons l ls ih =>
    intro d hnd hp h
    rw [List.flatMap_cons, List.nodup_append] at hnd
    obtain ⟨h1, h2, _⟩ := hnd
    have hpt : ∀ t ∈ l.nonSpace.map (fun i => d.getTag i), Spec.ProperTag t := by
      intro t ht
      obtain ⟨i, _, rfl⟩ := List.mem_map.1 ht
      exact hp i
    have hp' : ∀ i, Spec.ProperTag ((extendLine ecfg d l).getTag i) := by
      intro i
      by_cases hi : i ∈ l.nonSpace
      · have hm : (extendLine ecfg d l).getTag i ∈ extendedLineTags ecfg (l.nonSpace.map (fun i => d.getTag i)) := by
          rw [← extendLine_tags ecfg d l h1 (fun i _ => hp i)]
          exact List.mem_map_of_mem hi
        exact extended_proper ecfg _ hpt _ hm
      · rw [extendLine_other _ _ _ _ hi]; exact hp i
    rw [List.foldl_cons]
    refine ih _ h2 hp' ?_
    rw [extendLine_eq]
    refine mainExact_setTags hb _ d (h1.sublist (map_fst_zip_sublist _ _)) (fun p hpm ht => ?_) h
    obtain ⟨k, hk⟩ := List.mem_iff_getElem?.1 hpm
    obtain ⟨i, t⟩ := p
    rw [List.getElem?_zip_eq_some] at hk
    obtain ⟨hk1, hk2⟩ := hk
    simp only at ht hk1 hk2 ⊢
    have hkt : (l.nonSpace.map (fun i => d.getTag i))[k]? = some (d.getTag i) := by rw [List.getElem?_map, hk1]; rfl
    by_cases hno : d.getTag i = none
    · rw [hno]; exact .inl rfl
    · obtain ⟨t', ht', hv⟩ := (C22_keeps_values ecfg _ hpt).2 k (d.getTag i) hkt hno
      rw [hk2] at ht'
      cases ht'
      refine .inr ⟨?_, by rw [stripTagPrefix_eq_tagValue, stripTagPrefix_eq_tagValue]; exact hv.symm⟩
      cases hg : d.getTag i with
      | none => exact absurd hg hno
      | some s =>
        cases s with
        | nil => exact absurd rfl (hp i _ hg).1
        | cons _ _ => rfl

/-- With labels extended to lines or not. -/
theorem mainExact_annotate (env : MatchEnv) (cfg : MatchCfg) (targets : List Target) (hp : cfg.preserveSubAnnotations = false)
    (hn : ∀ t ∈ targets, Spec.ProperTag (some t.name)) {b d' : Doc} (hb : LinesApart b) (hnd : b.nonSpaceTokens.Nodup)
    (hpt : ∀ i, Spec.ProperTag (b.getTag i))
    (h : simpleAnnotate env cfg targets b = .ok d') (hd : MainExact b b) : MainExact b d' := by
  obtain ⟨d1, left, hl, rfl⟩ := C19_aux env cfg targets b d' h
  have h1 : MainExact b d1 := by
    refine invariant_annotateLoop (cfg := cfg) (I := fun d => MainExact b d) env _ _ _ _ (fun t ht => ?_) hl hd
    refine ⟨fun _ d is hall hd => ?_, fun _ s hs d is _ hd => hd.subOnly (subOnly_subTagTokens cfg s.1 is d 0)⟩
    exact mainExact_tagTokens hb cfg hp (hn t ht t.name rfl).1 is d 0 (fun i hi => .inl (hall i hi)) hd
  have h2 := proper_annotateLoop env cfg targets hn _ hl hpt
  have hs : SameBut b d1 := (annotateLoop_grows env cfg _ b d1 _ left hl).1.same
  split
  · exact mainExact_extendLines hb (extendCfg cfg) d1.lines d1 (by rw [show d1.lines.flatMap (·.nonSpace) = d1.nonSpaceTokens from rfl, hs.nonSpaceTokens]; exact hnd) h2 h1
  · exact h1

/-- The preserved tags are the same. -/
def MainStays (b d : Doc) : Prop := ∀ i, d.getAttr i keptMainAttr = b.getAttr i keptMainAttr

theorem MainStays.subOnly {b d d' : Doc} (h : MainStays b d) (hs : SubOnly d d') : MainStays b d' :=
  fun i => (hs.attrs i _ (by decide) (by decide)).trans (h i)

theorem MainStays.setTagOnly {b d : Doc} (h : MainStays b d) (i : Nat) (t : Option Str) : MainStays b (d.setTagOnly i t) := by
  intro j
  show (d.setAttr i _ t).getAttr j _ = _
  rw [getAttr_setAttr, if_neg (fun e => absurd e.2 (by decide))]
  exact h j

theorem mainStays_simple (env : MatchEnv) (cfg : MatchCfg) (targets : List Target) (hp : cfg.preserveSubAnnotations = true)
    (he : cfg.extendToLineEnabled = false) {b d d' : Doc}
    (h : simpleAnnotate env cfg targets d = .ok d') (hd : MainStays b d) : MainStays b d' := by
  refine invariant_simple (I := fun d => MainStays b d) env targets (fun t ht => ?_) he d d' h hd
  refine ⟨fun _ d is _ hd => tagTokens_each (I := fun d => MainStays b d) (fun d i k hd => ?_) is d 0 hd,
    fun _ s hs d is _ hd => hd.subOnly (subOnly_subTagTokens cfg s.1 is d 0)⟩
  rw [if_pos hp]
  exact hd.setTagOnly _ _

end Verif
