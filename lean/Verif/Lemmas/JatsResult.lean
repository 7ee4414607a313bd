/-
Helper lemmas: properties of all identifiers through all steps of fixing a reference.
-/
import Verif.Lemmas.JatsShape
import Verif.Lemmas.JatsDoc
import Verif.Spec.JatsResult

namespace Verif
open Spec

/-- Identities differ and identifiers have no elements inside. -/
structure JBase (S : List JShape) : Prop where
  nodup : (shapeIds S).Nodup
  leaf : ∀ s ∈ S, s.tag = c!"pub-id" → s.leaf = true

/-- What is known about the elements selected for a step. -/
def SelOk (k : JatsFix) (s : JShape) : Prop :=
  match k with
  | .lowerType | .doiLink => True
  | .doi => s.attrs.get? c!"pub-id-type" = some c!"doi"
  | .pii => s.attrs.get? c!"pub-id-type" = some c!"pii"
  | .pmid => s.attrs.get? c!"pub-id-type" = some c!"pmid"
  | .pmcid => s.attrs.get? c!"pub-id-type" = some c!"pmcid"
  | _ => s.tag ≠ c!"pub-id"

structure RunInv (k : JatsFix) (F : JShape → Prop) (pend : Bool) (ids : List Nat) (n : JNode) : Prop where
  base : JBase (shapes n)
  root : n.tag ≠ c!"pub-id"
  sel : ∀ s ∈ shapes n, s.id ∈ ids → SelOk k s
  there : addedType k ≠ none → ∀ i ∈ ids, i ∈ shapeIds (shapes n)
  ok : ∀ s ∈ shapes n, s.tag = c!"pub-id" → F s ∨ (pend = true ∧ s.id ∈ ids)

theorem foldl_max_ge (l : List Nat) (a : Nat) : a ≤ l.foldl max a ∧ ∀ x ∈ l, x ≤ l.foldl max a := by
  induction l generalizing a with
  | nil => exact ⟨Nat.le_refl _, fun x hx => by cases hx⟩
  | cons y l ih =>
    obtain ⟨h1, h2⟩ := ih (max a y)
    refine ⟨Nat.le_trans (Nat.le_max_left a y) h1, ?_⟩
    intro x hx
    rcases List.mem_cons.mp hx with rfl | hx
    · exact Nat.le_trans (Nat.le_max_right a x) h1
    · exact h2 x hx

theorem lt_freshId {n : JNode} {s : JShape} (h : s ∈ shapes n) : s.id < freshId n := by
  obtain ⟨e, he, rfl⟩ := List.mem_map.mp h
  exact Nat.lt_succ_of_le ((foldl_max_ge _ 0).2 _ (List.mem_map.mpr ⟨e, he, rfl⟩))

/-- Elements with the same identity are the same. -/
theorem shape_unique {S : List JShape} (h : (shapeIds S).Nodup) {s t : JShape} (hs : s ∈ S) (ht : t ∈ S) (hid : s.id = t.id) : s = t := by
  induction S with
  | nil => cases hs
  | cons u S ih =>
    obtain ⟨h1, h2⟩ := List.nodup_cons.mp h
    rcases List.mem_cons.mp hs with hs | hs
    · rcases List.mem_cons.mp ht with ht | ht
      · rw [hs, ht]
      · exact absurd (List.mem_map.mpr ⟨t, ht, by rw [← hid, hs]⟩) h1
    · rcases List.mem_cons.mp ht with ht | ht
      · exact absurd (List.mem_map.mpr ⟨s, hs, by rw [hid, ht]⟩) h1
      · exact ih h2 hs ht

theorem leaf_el {env : JatsEnv} {k : JatsFix} {el : JNode} {s : JShape} (hsel : SelOk k (shapeOf el)) (htag : el.tag = c!"pub-id")
    (hl : el.children.isEmpty = true) (h : ElOk env k el s) : s.leaf = true := by
  cases k <;> first | exact absurd htag hsel | (cases h; exact hl) | (rw [h.2.1]; exact hl)

theorem leaf_new {env : JatsEnv} {k : JatsFix} {s : JShape} (htag : s.tag = c!"pub-id") (h : NewOk env k s) : s.leaf = true := by
  cases k <;> first | exact h.elim | exact h.2.1 | (have h : s.tag = c!"ext-link" := h; rw [h] at htag; exact absurd htag (by decide))

/-- One element of a step. -/
theorem runInv_step {env : JatsEnv} {k : JatsFix} {F : JShape → Prop} {pend : Bool} {i : Nat} {ids : List Nat} {n n' : JNode} {b : Bool}
    (hEl : ∀ el s, SelOk k (shapeOf el) → el.tag = c!"pub-id" → ElOk env k el s → (F (shapeOf el) ∨ pend = true) → F s)
    (hNew : ∀ s, NewOk env k s → s.tag = c!"pub-id" → F s)
    (hids : (i :: ids).Nodup)
    (hi : RunInv k F pend (i :: ids) n) (h : editAt i (fixOp env k (freshId n)) n = .ok (n', b)) :
    RunInv k F pend ids n' ∧ (b = true → addedType k ≠ none) := by
  obtain ⟨hbase, hroot, hsel, hthere, hok⟩ := hi
  have hroot' : n'.tag ≠ c!"pub-id" := by
    obtain ⟨_, h2, _⟩ := editAt_root _ _ _ _ _ h
    rw [h2]; exact hroot
  rcases editAt_shapes i _ n n' b hbase.nodup h with ⟨h1, rfl, rfl⟩ | ⟨A, B, p, c, t', cs', hid, hop, hS, hS'⟩
  · refine ⟨⟨hbase, hroot, fun s hs hi => hsel s hs (List.mem_cons_of_mem _ hi), fun ha j hj => hthere ha j (List.mem_cons_of_mem _ hj), ?_⟩,
      fun h => by cases h⟩
    intro s hs htag
    rcases hok s hs htag with h | ⟨hp, h⟩
    · exact .inl h
    · rcases List.mem_cons.mp h with h | h
      · exfalso
        rw [shapes_eq] at hs
        rcases List.mem_cons.mp hs with rfl | hs
        · exact hroot htag
        · exact h1 s hs h
      · exact .inr ⟨hp, h⟩
  · obtain ⟨hopk, hstop, hkept⟩ := fixOp_ok env k _ c t' cs' b hop
    refine ⟨?_, hstop⟩
    have hel : shapeOf c.el ∈ shapes n := by
      rw [hS]
      exact List.mem_append_right _ (List.mem_cons_of_mem _ (List.mem_append_left _
        (mem_shapesL_of_mem (List.mem_append_right _ List.mem_cons_self))))
    have hpar : p.tag ≠ c!"pub-id" := by
      intro hc
      have : (⟨p.id, p.tag, p.attrs, c.text, false⟩ : JShape) ∈ shapes n := by
        rw [hS]; exact List.mem_append_right _ List.mem_cons_self
      exact Bool.false_ne_true (hbase.leaf _ this hc)
    have hselEl : SelOk k (shapeOf c.el) := hsel _ hel (by rw [← hid]; exact List.mem_cons_self)
    have hmid : ∀ s ∈ shapesL c.left ++ shapesL c.el.children ++ shapesL c.right, s ∈ shapes n ∧ s.id ≠ i := by
      intro s hs
      have hs' : s ∈ shapes n := by
        rw [hS, shapesL_append, shapesL_cons, shapes_eq]
        simp only [List.mem_append, List.mem_cons] at hs ⊢
        rcases hs with (hs | hs) | hs
        · exact .inr (.inr (.inl (.inl hs)))
        · exact .inr (.inr (.inl (.inr (.inl (.inr hs)))))
        · exact .inr (.inr (.inl (.inr (.inr hs))))
      refine ⟨hs', ?_⟩
      intro hc
      have hnd := hbase.nodup
      rw [hS, shapesL_append, shapesL_cons, shapes_eq] at hnd
      have hcount := List.nodup_iff_count.mp hnd i
      have h2 : i ∈ shapeIds (shapesL c.left ++ shapesL c.el.children ++ shapesL c.right) := List.mem_map.mpr ⟨s, hs, hc⟩
      have h3 := List.count_pos_iff.mpr h2
      simp only [shapeIds, List.map_append, List.map_cons, List.count_append, List.count_cons, shapeOf, hid] at hcount h3
      rw [show (i == i) = true by simp, if_pos rfl] at hcount
      omega
    have hout : ∀ s, s ∈ A ∨ s ∈ B → s ∈ shapes n ∧ s.id ≠ i := by
      intro s hs
      have hs' : s ∈ shapes n := by
        rw [hS]
        simp only [List.mem_append, List.mem_cons]
        rcases hs with hs | hs
        · exact .inl hs
        · exact .inr (.inr (.inr hs))
      refine ⟨hs', ?_⟩
      intro hc
      have hnd := hbase.nodup
      rw [hS, shapesL_append, shapesL_cons, shapes_eq] at hnd
      have hcount := List.nodup_iff_count.mp hnd i
      have h2 : i ∈ shapeIds (A ++ B) := List.mem_map.mpr ⟨s, List.mem_append.mpr hs, hc⟩
      have h3 := List.count_pos_iff.mpr h2
      simp only [shapeIds, List.map_append, List.map_cons, List.count_append, List.count_cons, shapeOf, hid] at hcount h3
      rw [show (i == i) = true by simp, if_pos rfl] at hcount
      omega
    -- the elements afterwards
    have hall : ∀ s ∈ shapes n', (s ∈ shapes n ∧ s.id ≠ i) ∨ (s.id = i ∧ s.tag = c.el.tag ∧ ElOk env k c.el s) ∨
        (s.tag ≠ c!"pub-id" ∧ ∃ s0 ∈ shapes n, s0.id = s.id ∧ s0.tag = s.tag ∧ s0.attrs = s.attrs) ∨
        (freshId n ≤ s.id ∧ NewOk env k s) := by
      intro s hs
      rw [hS'] at hs
      rcases List.mem_append.mp hs with hs | hs
      · exact .inl (hout s (.inl hs))
      · rcases List.mem_cons.mp hs with rfl | hs
        · refine .inr (.inr (.inl ⟨hpar, ⟨p.id, p.tag, p.attrs, c.text, false⟩, ?_, rfl, rfl, rfl⟩))
          rw [hS]; exact List.mem_append_right _ List.mem_cons_self
        · rcases List.mem_append.mp hs with hs | hs
          · rcases hopk.mem s hs with h | ⟨h1, h2, h3⟩ | ⟨h1, s0, h2, h3⟩ | h
            · exact .inl (hmid s h)
            · exact .inr (.inl ⟨h1.trans hid, h2, h3⟩)
            · refine .inr (.inr (.inl ⟨h1, s0, (hmid s0 ?_).1, h3⟩))
              exact List.mem_append_left _ (List.mem_append_right _ h2)
            · exact .inr (.inr (.inr h))
          · exact .inl (hout s (.inr hs))
    have hni : i ∉ ids := (List.nodup_cons.mp hids).1
    refine ⟨⟨?_, ?_⟩, hroot', ?_, ?_, ?_⟩
    · rw [List.nodup_iff_count]
      intro j
      have h1 := List.nodup_iff_count.mp hbase.nodup j
      have h2 := hopk.counts j
      have h3 : freshId n ≤ j → (shapeIds (shapes n)).count j = 0 := by
        intro hj
        rw [List.count_eq_zero]
        intro hc
        obtain ⟨s, hs, rfl⟩ := List.mem_map.mp hc
        exact absurd (lt_freshId hs) (Nat.not_lt.mpr hj)
      rw [hS] at h1 h3
      rw [hS']
      simp only [shapeIds, List.map_append, List.map_cons, List.count_append, List.count_cons] at h1 h2 h3 ⊢
      by_cases hj : freshId n ≤ j
      · rw [if_pos hj] at h2
        have h3 := h3 hj
        omega
      · rw [if_neg hj] at h2
        omega
    · intro s hs htag
      rcases hall s hs with ⟨h1, _⟩ | ⟨_, h2, h3⟩ | ⟨h1, _⟩ | ⟨_, h2⟩
      · exact hbase.leaf s h1 htag
      · exact leaf_el hselEl (h2.symm.trans htag) (hbase.leaf _ hel (h2.symm.trans htag)) h3
      · exact absurd htag h1
      · exact leaf_new htag h2
    · intro s hs hj
      rcases hall s hs with ⟨h1, _⟩ | ⟨h1, h2, h3⟩ | ⟨h1, s0, h2, h3, h4, h5⟩ | ⟨h1, h2⟩
      · exact hsel s h1 (List.mem_cons_of_mem _ hj)
      · exact absurd (h1 ▸ hj) hni
      · have := hsel s0 h2 (List.mem_cons_of_mem _ (h3 ▸ hj))
        unfold SelOk at this ⊢
        rw [h4, h5] at this
        exact this
      · by_cases ha : addedType k = none
        · cases k <;> first
            | (simp only [addedType] at ha; cases ha; done)
            | exact h2.elim
            | trivial
            | (have h2 : s.tag = c!"ext-link" := h2
               show s.tag ≠ c!"pub-id"
               rw [h2]; decide)
        · have := hthere ha s.id (List.mem_cons_of_mem _ hj)
          obtain ⟨u, hu, hus⟩ := List.mem_map.mp this
          have := lt_freshId hu
          omega
    · intro ha j hj
      have := hthere ha j (List.mem_cons_of_mem _ hj)
      have hk := hkept ha j
      rw [hS] at this
      rw [hS']
      simp only [shapeIds, List.map_append, List.map_cons, List.mem_append, List.mem_cons] at this hk ⊢
      rcases this with h | h | h | h
      · exact .inl h
      · exact .inr (.inl h)
      · exact .inr (.inr (.inl (hk h)))
      · exact .inr (.inr (.inr h))
    · intro s hs htag
      rcases hall s hs with ⟨h1, h2⟩ | ⟨h1, h2, h3⟩ | ⟨h1, _⟩ | ⟨_, h2⟩
      · rcases hok s h1 htag with h | ⟨hp, h⟩
        · exact .inl h
        · rcases List.mem_cons.mp h with h | h
          · exact absurd h h2
          · exact .inr ⟨hp, h⟩
      · left
        refine hEl c.el s hselEl (h2.symm.trans htag) h3 ?_
        rcases hok _ hel (h2.symm.trans htag) with h | ⟨h, _⟩
        · exact .inl h
        · exact .inr h
      · exact absurd htag h1
      · exact .inl (hNew s h2 htag)

/-- All elements of a step. -/
theorem runInv_ids {env : JatsEnv} {k : JatsFix} {F : JShape → Prop} {pend : Bool}
    (hEl : ∀ el s, SelOk k (shapeOf el) → el.tag = c!"pub-id" → ElOk env k el s → (F (shapeOf el) ∨ pend = true) → F s)
    (hNew : ∀ s, NewOk env k s → s.tag = c!"pub-id" → F s)
    (hpend : pend = true → addedType k = none) (ids : List Nat) (n n' : JNode)
    (hids : ids.Nodup) (hi : RunInv k F pend ids n) (h : runIds env k ids n = .ok n') : RunInv k F pend [] n' := by
  induction ids generalizing n with
  | nil => cases h; exact hi
  | cons i ids ih =>
    unfold runIds at h
    split at h
    · cases h
    · next n1 stop he =>
      obtain ⟨h1, h2⟩ := runInv_step hEl hNew hids hi he
      split at h
      · next hs =>
        cases h
        refine ⟨h1.base, h1.root, fun _ _ h => (by cases h), fun _ _ h => (by cases h), ?_⟩
        intro s hs' htag
        rcases h1.ok s hs' htag with h | ⟨hp, _⟩
        · exact .inl h
        · exact absurd (hpend hp) (h2 hs)
      · exact ih n1 (List.nodup_cons.mp hids).2 h1 h

theorem selectIds_mem {p : JNode → Bool} {n : JNode} {i : Nat} (h : i ∈ selectIds p n) : ∃ e ∈ jAlls n.children, p e = true ∧ e.id = i := by
  obtain ⟨e, he, rfl⟩ := List.mem_map.mp h
  exact ⟨e, (List.mem_filter.mp he).1, (List.mem_filter.mp he).2, rfl⟩

theorem selectIds_nodup {p : JNode → Bool} {n : JNode} (h : (shapeIds (shapes n)).Nodup) : (selectIds p n).Nodup := by
  rw [shapes_eq] at h
  have h := (List.nodup_cons.mp h).2
  have h2 : (selectIds p n).Sublist (shapeIds (shapesL n.children)) := by
    unfold selectIds shapeIds shapesL
    rw [List.map_map]
    exact List.filter_sublist.map _
  exact h.sublist h2

/-- Elements selected for a step. -/
theorem fixSelect_spec {k : JatsFix} {n : JNode} (hb : (shapeIds (shapes n)).Nodup) :
    (fixSelect k n).Nodup ∧ ∀ i ∈ fixSelect k n, ∃ e ∈ jAlls n.children, SelOk k (shapeOf e) ∧ e.id = i := by
  have tag : ∀ (tg : Str), tg ≠ c!"pub-id" → ∀ i ∈ selectIds (fun n => n.tag = tg) n,
      ∃ e ∈ jAlls n.children, (shapeOf e).tag ≠ c!"pub-id" ∧ e.id = i := by
    intro tg htg i hi
    obtain ⟨e, h1, h2, h3⟩ := selectIds_mem hi
    have h2 : e.tag = tg := of_decide_eq_true h2
    refine ⟨e, h1, ?_, h3⟩
    show e.tag ≠ _
    rw [h2]; exact htg
  have type : ∀ (ty : Str), ∀ i ∈ selectIds (isPubId ty) n,
      ∃ e ∈ jAlls n.children, (shapeOf e).attrs.get? c!"pub-id-type" = some ty ∧ e.id = i := by
    intro ty i hi
    obtain ⟨e, h1, h2, h3⟩ := selectIds_mem hi
    simp only [isPubId, Bool.and_eq_true, decide_eq_true_eq] at h2
    exact ⟨e, h1, h2.2, h3⟩
  have cit : ∀ q, (citationsUnless q n).Nodup ∧ ∀ i ∈ citationsUnless q n, ∃ e ∈ jAlls n.children, (shapeOf e).tag ≠ c!"pub-id" ∧ e.id = i := by
    intro q
    unfold citationsUnless
    split
    · exact ⟨selectIds_nodup hb, tag _ (by decide)⟩
    · exact ⟨List.nodup_nil, fun i hi => by cases hi⟩
  have any : ∀ p, ∀ i ∈ selectIds p n, ∃ e ∈ jAlls n.children, True ∧ e.id = i := by
    intro p i hi
    obtain ⟨e, h1, _, h3⟩ := selectIds_mem hi
    exact ⟨e, h1, trivial, h3⟩
  cases k <;> first
    | exact cit _
    | exact ⟨selectIds_nodup hb, any _⟩
    | exact ⟨selectIds_nodup hb, type _⟩
    | exact ⟨selectIds_nodup hb, tag _ (by decide)⟩

theorem mem_shapes_of_child {n e : JNode} (h : e ∈ jAlls n.children) : shapeOf e ∈ shapes n := by
  rw [shapes_eq]
  exact List.mem_cons_of_mem _ (List.mem_map.mpr ⟨e, h, rfl⟩)

/-- A property of all identifiers, through one step. -/
theorem runFix_inv {env : JatsEnv} {k : JatsFix} {F : JShape → Prop} {pend : Bool}
    (hEl : ∀ el s, SelOk k (shapeOf el) → el.tag = c!"pub-id" → ElOk env k el s → (F (shapeOf el) ∨ pend = true) → F s)
    (hNew : ∀ s, NewOk env k s → s.tag = c!"pub-id" → F s)
    (hpend : pend = true → addedType k = none) {n n' : JNode} (hb : JBase (shapes n)) (hr : n.tag ≠ c!"pub-id")
    (hF : ∀ s ∈ shapes n, s.tag = c!"pub-id" → F s ∨ (pend = true ∧ s.id ∈ fixSelect k n))
    (h : runFix env k n = .ok n') : JBase (shapes n') ∧ n'.tag ≠ c!"pub-id" ∧ ∀ s ∈ shapes n', s.tag = c!"pub-id" → F s := by
  obtain ⟨h1, h2⟩ := fixSelect_spec (k := k) hb.nodup
  have := runInv_ids hEl hNew hpend (fixSelect k n) n n' h1 ⟨hb, hr, ?_, ?_, hF⟩ h
  · refine ⟨this.base, this.root, ?_⟩
    intro s hs htag
    rcases this.ok s hs htag with h | ⟨_, h⟩
    · exact h
    · cases h
  · intro s hs hi
    obtain ⟨e, he, hsel, hid⟩ := h2 s.id hi
    rw [shape_unique hb.nodup hs (mem_shapes_of_child he) hid.symm]
    exact hsel
  · intro _ i hi
    obtain ⟨e, he, _, hid⟩ := h2 i hi
    exact List.mem_map.mpr ⟨shapeOf e, mem_shapes_of_child he, hid⟩

/-! ### The properties -/

/-- The type is in lower case if it is a known one. -/
def LowOk (env : JatsEnv) (s : JShape) : Prop :=
  ∀ ty, s.attrs.get? c!"pub-id-type" = some ty → env.lower ty ∈ knownPubIdTypes → env.lower ty = ty

/-- The text was found by the pattern for the type. -/
def MatchOk (env : JatsEnv) (T : Str) (s : JShape) : Prop :=
  s.attrs.get? c!"pub-id-type" = some T → s.text = none ∨ ∃ x a b, IdFound env T x a b ∧ s.text = some (sliceStr x a b)

theorem newOk_attrs {env : JatsEnv} {k : JatsFix} {s : JShape} (h : NewOk env k s) (htag : s.tag = c!"pub-id") :
    ∃ b, addedType k = some (s.attrs.getD c!"pub-id-type" [], b) := by
  cases k <;> first | exact h.elim | exact h.2.2.1 | (have h : s.tag = c!"ext-link" := h; rw [h] at htag; exact absurd htag (by decide))

theorem newOk_text {env : JatsEnv} {k : JatsFix} {s : JShape} (h : NewOk env k s) (htag : s.tag = c!"pub-id") :
    ∃ x a b, fixFind env k x = .ok (some (a, b)) ∧ s.text = some (sliceStr x a b) := by
  cases k <;> first | exact h.elim | exact h.2.2.2 | (have h : s.tag = c!"ext-link" := h; rw [h] at htag; exact absurd htag (by decide))

theorem lowOk_new {env : JatsEnv} (hl : Lowercase env.lower) {k : JatsFix} {s : JShape} (h : NewOk env k s) (htag : s.tag = c!"pub-id") :
    LowOk env s := by
  obtain ⟨b, hb⟩ := newOk_attrs h htag
  intro ty hty _
  rw [Dict.getD, hty] at hb
  apply hl.added
  cases k <;> simp only [addedType] at hb <;> first | (cases hb; done) | (cases hb; simp)

theorem lowOk_el {env : JatsEnv} (hl : Lowercase env.lower) {k : JatsFix} {el : JNode} {s : JShape} (hsel : SelOk k (shapeOf el))
    (htag : el.tag = c!"pub-id") (h : ElOk env k el s) (hF : LowOk env (shapeOf el) ∨ k = .lowerType) : LowOk env s := by
  have lower : k = .lowerType → LowOk env s := by
    rintro rfl ty hty hk
    obtain ⟨_, _, h⟩ := h
    split at h
    · rw [h, Dict.get?_set_self] at hty
      cases hty
      exact hl.twice _
    · next hc =>
      rw [h] at hty
      rw [hty] at hc
      cases ty with
      | nil => exact hl.empty
      | cons x ty =>
        refine absurd ?_ hc
        rw [Bool.and_eq_true]
        exact ⟨rfl, decide_eq_true hk⟩
  rcases hF with hF | hF
  · have same : s.attrs = el.attrs → LowOk env s := by
      intro ha
      unfold LowOk at hF ⊢
      rw [ha]
      exact hF
    cases k <;> first
      | exact lower rfl
      | exact absurd htag hsel
      | exact same (congrArg JShape.attrs h)
      | exact same h.1
  · exact lower hF

theorem matchOk_new {env : JatsEnv} {T : Str} (hT : T ∈ [c!"doi", c!"pmid", c!"pmcid", c!"pii"]) {k : JatsFix} {s : JShape}
    (h : NewOk env k s) (htag : s.tag = c!"pub-id") : MatchOk env T s := by
  obtain ⟨b, hb⟩ := newOk_attrs h htag
  obtain ⟨x, a, c, hf, ht⟩ := newOk_text h htag
  intro hty
  rw [Dict.getD, hty] at hb
  refine .inr ⟨x, a, c, ?_, ht⟩
  have other : c!"other" ∉ [c!"doi", c!"pmid", c!"pmcid", c!"pii"] := by decide
  unfold IdFound
  cases k <;> simp only [addedType] at hb <;> first
    | (cases hb; done)
    | (cases hb
       simp only [fixFind, Except.ok.injEq] at hf
       first
         | exact absurd hT other
         | exact .inl ⟨rfl, hf⟩
         | exact .inr (.inl ⟨rfl, .inr hf⟩)
         | exact .inr (.inr (.inl ⟨rfl, hf⟩))
         | exact .inr (.inr (.inr ⟨rfl, hf⟩)))

/-- The step for a type. -/
def stepOf (k : JatsFix) : Option Str :=
  match k with
  | .doi => some c!"doi"
  | .pii => some c!"pii"
  | .pmid => some c!"pmid"
  | .pmcid => some c!"pmcid"
  | _ => none

theorem matchOk_el {env : JatsEnv} {T : Str} {k : JatsFix} {el : JNode} {s : JShape} (hk : k ≠ .lowerType) (hsel : SelOk k (shapeOf el))
    (htag : el.tag = c!"pub-id") (h : ElOk env k el s) (hF : MatchOk env T (shapeOf el) ∨ stepOf k = some T) : MatchOk env T s := by
  have found : s.text = none ∨ (∃ x a b, fixFind env k x = .ok (some (a, b)) ∧ s.text = some (sliceStr x a b)) → stepOf k = some T →
      MatchOk env T s := by
    intro h1 hk _
    rcases h1 with h1 | ⟨x, a, b, h1, h2⟩
    · exact .inl h1
    · refine .inr ⟨x, a, b, ?_, h2⟩
      unfold IdFound
      cases k <;> simp only [stepOf] at hk <;> first
        | (cases hk; done)
        | (cases hk
           simp only [fixFind, Except.ok.injEq] at h1
           first
             | exact .inl ⟨rfl, h1⟩
             | exact .inr (.inl ⟨rfl, .inl h1⟩)
             | exact .inr (.inr (.inl ⟨rfl, h1⟩))
             | exact .inr (.inr (.inr ⟨rfl, h1⟩)))
  have differs : ∀ T', (shapeOf el).attrs.get? c!"pub-id-type" = some T' → s.attrs = el.attrs → T ≠ T' → MatchOk env T s := by
    intro T' h1 h2 hne hty
    rw [h2] at hty
    have h1 : el.attrs.get? c!"pub-id-type" = some T' := h1
    rw [h1] at hty
    cases hty
    exact absurd rfl hne
  cases k
  case lowerType => exact absurd rfl hk
  case doiLink =>
    cases h
    exact hF.resolve_right (fun h => by cases h)
  case doi =>
    by_cases hT : T = c!"doi"
    · exact found h.2.2 (by rw [hT]; rfl)
    · exact differs _ hsel h.1 hT
  case pii =>
    by_cases hT : T = c!"pii"
    · exact found h.2.2 (by rw [hT]; rfl)
    · exact differs _ hsel h.1 hT
  case pmid =>
    by_cases hT : T = c!"pmid"
    · exact found h.2.2 (by rw [hT]; rfl)
    · exact differs _ hsel h.1 hT
  case pmcid =>
    by_cases hT : T = c!"pmcid"
    · exact found h.2.2 (by rw [hT]; rfl)
    · exact differs _ hsel h.1 hT
  all_goals exact absurd htag hsel

/-! ### All steps -/

theorem runFixes_append (env : JatsEnv) (ks ls : List JatsFix) (n n' : JNode) (h : runFixes env (ks ++ ls) n = .ok n') :
    ∃ n1, runFixes env ks n = .ok n1 ∧ runFixes env ls n1 = .ok n' := by
  induction ks generalizing n with
  | nil => exact ⟨n, rfl, h⟩
  | cons k ks ih =>
    rw [List.cons_append, runFixes] at h
    rw [runFixes]
    split at h
    · cases h
    · next n1 h1 =>
      exact ih n1 h

/-- A property kept by all steps. -/
theorem runFixes_inv {env : JatsEnv} {F : JShape → Prop} (ks : List JatsFix)
    (hEl : ∀ k ∈ ks, ∀ el s, SelOk k (shapeOf el) → el.tag = c!"pub-id" → ElOk env k el s → F (shapeOf el) → F s)
    (hNew : ∀ k ∈ ks, ∀ s, NewOk env k s → s.tag = c!"pub-id" → F s) {n n' : JNode} (hb : JBase (shapes n)) (hr : n.tag ≠ c!"pub-id")
    (hF : ∀ s ∈ shapes n, s.tag = c!"pub-id" → F s)
    (h : runFixes env ks n = .ok n') : JBase (shapes n') ∧ n'.tag ≠ c!"pub-id" ∧ ∀ s ∈ shapes n', s.tag = c!"pub-id" → F s := by
  induction ks generalizing n with
  | nil => cases h; exact ⟨hb, hr, hF⟩
  | cons k ks ih =>
    rw [runFixes] at h
    split at h
    · cases h
    · next n1 h1 =>
      obtain ⟨g1, g2, g3⟩ := runFix_inv (pend := false)
        (fun el s a b c d => hEl k List.mem_cons_self el s a b c (d.resolve_right (fun h => by cases h)))
        (hNew k List.mem_cons_self) (fun h => by cases h) hb hr (fun s hs ht => .inl (hF s hs ht)) h1
      exact ih (fun k hk => hEl k (List.mem_cons_of_mem _ hk)) (fun k hk => hNew k (List.mem_cons_of_mem _ hk)) g1 g2 g3 h

theorem plain_base {n : JNode} (hp : PlainReference n) : JBase (shapes n) := by
  constructor
  · have := hp.ids
    unfold shapeIds shapes
    rw [List.map_map]
    exact this
  · intro s hs htag
    obtain ⟨e, he, rfl⟩ := List.mem_map.mp hs
    exact List.isEmpty_iff.mpr (hp.leaf e he htag)

theorem base_plain {n : JNode} (hb : JBase (shapes n)) (hr : n.tag ≠ c!"pub-id") : PlainReference n := by
  refine ⟨?_, hr, ?_⟩
  · have := hb.nodup
    unfold shapeIds shapes at this
    rw [List.map_map] at this
    exact this
  · intro e he htag
    exact List.isEmpty_iff.mp (hb.leaf (shapeOf e) (List.mem_map.mpr ⟨e, he, rfl⟩) htag)

theorem mem_select {n : JNode} {s : JShape} (hr : n.tag ≠ c!"pub-id") (hs : s ∈ shapes n) (htag : s.tag = c!"pub-id") :
    ∃ e ∈ jAlls n.children, shapeOf e = s := by
  rw [shapes_eq] at hs
  rcases List.mem_cons.mp hs with rfl | hs
  · exact absurd htag hr
  · exact List.mem_map.mp hs

theorem fixReference_low {env : JatsEnv} (hl : Lowercase env.lower) {n n' : JNode} (hp : PlainReference n)
    (h : fixReference env n = .ok n') : ∀ s ∈ shapes n', s.tag = c!"pub-id" → LowOk env s := by
  obtain ⟨n1, h1, h2⟩ := runFixes_append env [.lowerType] (fixSteps.drop 1) n n' h
  have h1 : runFix env .lowerType n = .ok n1 := by
    rw [runFixes] at h1
    split at h1
    · cases h1
    · next n2 h2 => cases h1; exact h2
  obtain ⟨g1, g2, g3⟩ := runFix_inv (F := LowOk env) (pend := true)
    (fun el s a b c _ => lowOk_el hl a b c (.inr rfl)) (fun s a b => lowOk_new hl a b) (fun _ => rfl) (plain_base hp) hp.root
    (fun s hs ht => by
      right
      obtain ⟨e, he, rfl⟩ := mem_select hp.root hs ht
      exact ⟨rfl, List.mem_map.mpr ⟨e, List.mem_filter.mpr ⟨he, decide_eq_true ht⟩, rfl⟩⟩) h1
  exact (runFixes_inv (fixSteps.drop 1) (fun k _ el s a b c d => lowOk_el hl a b c (.inl d)) (fun k _ s a b => lowOk_new hl a b)
    g1 g2 g3 h2).2.2

theorem fixReference_match {env : JatsEnv} {T : Str} (hT : T ∈ [c!"doi", c!"pmid", c!"pmcid", c!"pii"]) {n n' : JNode} (hp : PlainReference n)
    (h : fixReference env n = .ok n') : ∀ s ∈ shapes n', s.tag = c!"pub-id" → MatchOk env T s := by
  have key : ∀ (pre post : List JatsFix) (k : JatsFix), fixSteps = pre ++ k :: post → stepOf k = some T → addedType k = none →
      (∀ n, fixSelect k n = selectIds (isPubId T) n) → JatsFix.lowerType ∉ post →
      ∀ s ∈ shapes n', s.tag = c!"pub-id" → MatchOk env T s := by
    intro pre post k hfix hk ha hsel hpost
    unfold fixReference at h
    rw [hfix] at h
    obtain ⟨n1, h1, h2⟩ := runFixes_append env pre (k :: post) n n' h
    obtain ⟨g1, g2, -⟩ := runFixes_inv (F := fun _ => True) pre (fun _ _ _ _ _ _ _ _ => trivial) (fun _ _ _ _ _ => trivial) (plain_base hp) hp.root
      (fun _ _ _ => trivial) h1
    rw [runFixes] at h2
    split at h2
    · cases h2
    · next n2 h3 =>
      have hkl : k ≠ .lowerType := by
        rintro rfl; cases hk
      obtain ⟨g3, g4, g5⟩ := runFix_inv (F := MatchOk env T) (pend := true)
        (fun el s a b c _ => matchOk_el hkl a b c (.inr hk)) (fun s a b => matchOk_new hT a b) (fun _ => ha) g1 g2
        (fun s hs ht => by
          by_cases hty : s.attrs.get? c!"pub-id-type" = some T
          · right
            obtain ⟨e, he, rfl⟩ := mem_select g2 hs ht
            rw [hsel]
            refine ⟨rfl, List.mem_map.mpr ⟨e, List.mem_filter.mpr ⟨he, ?_⟩, rfl⟩⟩
            unfold isPubId
            rw [Bool.and_eq_true]
            exact ⟨decide_eq_true ht, decide_eq_true hty⟩
          · exact .inl (fun h => absurd h hty)) h3
      exact (runFixes_inv post (fun k hk el s a b c d => matchOk_el (fun h => hpost (h ▸ hk)) a b c (.inl d)) (fun k _ s a b => matchOk_new hT a b)
        g3 g4 g5 h2).2.2
  simp only [List.mem_cons, List.not_mem_nil, or_false] at hT
  rcases hT with rfl | rfl | rfl | rfl
  · exact key (fixSteps.take 3) (fixSteps.drop 4) .doi rfl rfl rfl (fun _ => rfl) (by decide)
  · exact key (fixSteps.take 9) (fixSteps.drop 10) .pmid rfl rfl rfl (fun _ => rfl) (by decide)
  · exact key (fixSteps.take 10) (fixSteps.drop 11) .pmcid rfl rfl rfl (fun _ => rfl) (by decide)
  · exact key (fixSteps.take 8) (fixSteps.drop 9) .pii rfl rfl rfl (fun _ => rfl) (by decide)

theorem fixReference_plain {env : JatsEnv} {n n' : JNode} (hp : PlainReference n) (h : fixReference env n = .ok n') : PlainReference n' := by
  obtain ⟨h1, h2, _⟩ := runFixes_inv (F := fun _ => True) fixSteps (fun _ _ _ _ _ _ _ _ => trivial) (fun _ _ _ _ _ => trivial) (plain_base hp)
    hp.root (fun _ _ _ => trivial) h
  exact base_plain h1 h2

end Verif
