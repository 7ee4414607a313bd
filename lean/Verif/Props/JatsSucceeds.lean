/-
Property C80: references which can always be fixed.
-/
import Verif.Lemmas.JatsSucceeds
import Verif.Spec.JatsSucceeds
import Verif.Props.JatsFix
import Verif.Lemmas.Dict

namespace Verif
open Spec

theorem editAt_stop (i : Nat) (f : JOp) (hf : ∀ c t cs b, f c = .ok (t, cs, b) → b = false) (n : JNode) :
    ∀ n' b, editAt i f n = .ok (n', b) → b = false := by
  refine JNode.rec (motive_1 := fun n => ∀ n' b, editAt i f n = .ok (n', b) → b = false)
    (motive_2 := fun ns => ∀ ns' b, editAts i f ns = .ok (ns', b) → b = false) ?_ ?_ ?_ n
  · intro j g a t cs tl ih n' b h
    unfold editAt at h
    split at h
    · split at h
      · cases h
      · next hc => cases h; exact hf _ _ _ _ hc
    · split at h
      · cases h
      · next hc => cases h; exact ih _ _ hc
  · intro ns' b h
    cases h
    rfl
  · intro n ns ih1 ih2 ns' b h
    unfold editAts at h
    split at h
    · cases h
    · next h1 =>
      split at h
      · cases h
      · next h2 =>
        cases h
        rw [ih1 _ _ h1, ih2 _ _ h2]
        rfl

theorem editAt_ok (i : Nat) (f : JOp) (hf : ∀ c, ∃ x, f c = .ok x) (n : JNode) : ∃ x, editAt i f n = .ok x := by
  refine JNode.rec (motive_1 := fun n => ∃ x, editAt i f n = .ok x) (motive_2 := fun ns => ∃ x, editAts i f ns = .ok x) ?_ ?_ ?_ n
  · intro j g a t cs tl ih
    unfold editAt
    split
    · next l e r _ =>
      obtain ⟨⟨x, y, z⟩, hx⟩ := hf ⟨t, l, e, r⟩
      rw [hx]
      exact ⟨_, rfl⟩
    · obtain ⟨⟨x, y⟩, hx⟩ := ih
      rw [hx]
      exact ⟨_, rfl⟩
  · exact ⟨_, rfl⟩
  · intro n ns ⟨⟨x, y⟩, h1⟩ ⟨⟨z, w⟩, h2⟩
    unfold editAts
    rw [h1, h2]
    exact ⟨_, rfl⟩

theorem changeOp_stop {find : Str → Except Err (Option (Nat × Nat))} (c : JCtx) (t : Option Str) (cs : List JNode) (b : Bool)
    (h : changeOp find c = .ok (t, cs, b)) : b = false := by
  unfold changeOp at h
  split at h
  · cases h; rfl
  · split at h <;> cases h <;> rfl

theorem changeOp_ids {find : Str → Except Err (Option (Nat × Nat))} (c : JCtx) (t : Option Str) (cs : List JNode) (b : Bool)
    (h : changeOp find c = .ok (t, cs, b)) : (jIds cs).Sublist (jIds (c.left ++ c.el :: c.right)) := by
  have hp : ∀ x, jIds (addToPrevious c.text c.left x).2 = jIds c.left := fun x => setPreviousText_ids _ _ _
  unfold changeOp at h
  split at h
  · cases h; exact List.Sublist.refl _
  · split at h
    · cases h
    · cases h
      show (jIds ((addToPrevious c.text c.left _).2 ++ c.right)).Sublist _
      rw [jIds_append, jIds_append, hp, jIds_cons]
      exact (List.Sublist.refl _).append ((List.sublist_append_right _ _).trans (List.sublist_cons_self _ _))
    · cases h
      show (jIds ((addToPrevious c.text c.left _).2 ++ addToTailPrefix (c.el.setText _) _ :: c.right)).Sublist _
      rw [jIds_append, jIds_append, hp, jIds_cons, jIds_cons]
      have e1 : ∀ (e : JNode) x y, (addToTailPrefix (e.setText x) y).id = e.id := fun e x y => by cases e; rfl
      have e2 : ∀ (e : JNode) x y, (addToTailPrefix (e.setText x) y).children = e.children := fun e x y => by cases e; rfl
      rw [e1, e2]
      exact List.Sublist.refl _

theorem moveFirstOut_ids (c : JCtx) : jIds ((moveFirstOut c).left ++ (moveFirstOut c).el :: (moveFirstOut c).right) =
    jIds (c.left ++ c.el :: c.right) := by
  unfold moveFirstOut
  split
  · have hp : ∀ x, jIds (addToPrevious c.text c.left x).2 = jIds c.left := fun x => setPreviousText_ids _ _ _
    simp only
    rw [jIds_append, jIds_append, hp, jIds_cons, jIds_cons, children_setText]
    cases c.el
    rfl
  · rfl

theorem moveLastOut_ids (e : JNode) (k : Nat) : (moveLastOut e k).id = e.id ∧ jIds (moveLastOut e k).children = jIds e.children := by
  unfold moveLastOut
  cases hl : e.children.getLast? with
  | none => exact ⟨rfl, rfl⟩
  | some last =>
    simp only
    split
    · refine ⟨by cases e; rfl, ?_⟩
      have := setPreviousText_ids none e.children (some ((orEmpty last.tail).take k))
      rw [← this]
      unfold setPreviousText
      rw [hl]
      cases e
      rfl
    · exact ⟨rfl, rfl⟩

theorem titleQuotesOp_ids (c : JCtx) (t : Option Str) (cs : List JNode) (b : Bool) (h : titleQuotesOp c = .ok (t, cs, b)) :
    jIds cs = jIds (c.left ++ c.el :: c.right) := by
  have hlast : ∀ (c : JCtx) k, jIds (c.left ++ moveLastOut c.el k :: c.right) = jIds (c.left ++ c.el :: c.right) := by
    intro c k
    rw [jIds_append, jIds_append, jIds_cons, jIds_cons, (moveLastOut_ids c.el k).1, (moveLastOut_ids c.el k).2]
  have hq : jIds ((quotesOp c).left ++ (quotesOp c).el :: (quotesOp c).right) = jIds (c.left ++ c.el :: c.right) := by
    unfold quotesOp
    simp only []
    split
    · rfl
    · split
      · exact (hlast (moveFirstOut c) _).trans (moveFirstOut_ids c)
      · split
        · rfl
        · split
          · rfl
          · split
            · exact moveFirstOut_ids c
            · rfl
  unfold titleQuotesOp at h
  cases h
  rw [← hq]
  unfold commaOp
  simp only []
  split
  · rfl
  · exact hlast (quotesOp c) _

/-! ### The steps -/

theorem shallow_false : Shallow (fun _ => False) := fun _ _ _ _ _ h => h
theorem shallow_true : Shallow (fun _ => True) := fun _ _ _ _ _ h => h
theorem shallow_pubId (type : Str) : Shallow (fun e => isPubId type e = true) := by
  intro n n' _ h2 h3 h
  unfold isPubId at h ⊢
  rw [h2, h3]
  exact h
theorem shallow_annotation (env : JatsEnv) : Shallow (DoiAnnotation env) := by
  intro n n' _ h2 h3 ⟨h4, type, h5, h6⟩
  exact ⟨h2.trans h4, type, by rw [h3]; exact h5, h6⟩

theorem goodList_weaken {D D' E K K' : JNode → Prop} {t : Option Str} {cs : List JNode} (hD : ∀ e, D' e → D e) (hK : ∀ e ∈ cs, K e → K' e)
    (h : GoodList D E K t cs) : GoodList D' E K' t cs := by
  refine ⟨fun e he => ⟨hK e he (h.1 e he).1, fun hd => (h.1 e he).2 (hD e hd)⟩, ?_⟩
  have h2 := h.2
  clear h hK
  generalize (none : Option JNode) = q at h2
  induction cs generalizing q t with
  | nil => trivial
  | cons e r ih => exact ⟨fun hd p hp hdp => h2.1 (hD e hd) p hp (hD p hdp), h2.2.1, ih _ h2.2.2⟩

/-- One step whose changes keep the lists of siblings as they have to be. -/
theorem runIds_lists {L : Option Str → List JNode → Prop} (env : JatsEnv) (k : JatsFix)
    (hsim : ∀ t cs cs', Similars cs cs' → L t cs → L t cs')
    (hids : ∀ fresh c t cs b, fixOp env k fresh c = .ok (t, cs, b) → (jIds cs).Sublist (jIds (c.left ++ c.el :: c.right)))
    (hf : ∀ fresh (c : JCtx), Lists L c.text (c.left ++ c.el :: c.right) →
      ∃ t' cs' b, fixOp env k fresh c = .ok (t', cs', b) ∧ Lists L t' cs' ∧ (c.text.isSome = true → t'.isSome = true)) :
    ∀ (is : List Nat) (n : JNode), (jIds n.children).Nodup → Lists L n.text n.children →
      ∃ n', runIds env k is n = .ok n' ∧ (jIds n'.children).Nodup ∧ Lists L n'.text n'.children
  | [], n, hn, hl => ⟨n, rfl, hn, hl⟩
  | i :: is, n, hn, hl => by
    obtain ⟨n', b, e1, e2, _⟩ := editAt_lists (U := fun _ => True) i (fixOp env k (freshId n)) (fun _ _ _ _ => trivial) hsim
      (fun _ _ _ h => h) (fun c _ _ h => hf _ c h) n trivial hl
    have hs := (editAt_ids (R := fun a b => a.Sublist b) i _ (List.Sublist.refl _)
      (fun x a b c d h1 h2 => List.Sublist.cons_cons x (h1.append h2)) (fun c _ t cs b h => hids _ c t cs b h) n n' b e1).1
    unfold runIds
    rw [e1]
    cases b with
    | true => exact ⟨n', rfl, hs.nodup hn, e2⟩
    | false => exact runIds_lists env k hsim hids hf is n' (hs.nodup hn) e2

theorem fixFind_ok (env : JatsEnv) (hcc : DigitsPlain env.cc) (h10 : ∀ c ∈ c!"10.", env.cc.isSpace c = false)
    (ht : TruncatesAtGap env.toJatsTextEnv) (k : JatsFix) (s : Str) : ∃ o, fixFind env k s = .ok o := by
  have hdoi : ∃ o, findDoi env.toJatsTextEnv s = .ok o := by
    rcases findDoi_spec env.toJatsTextEnv hcc h10 ht s with h | ⟨a, b, h, -⟩
    · exact ⟨_, h⟩
    · exact ⟨_, h⟩
  cases k <;> first | exact hdoi | exact ⟨_, rfl⟩

/-- The elements whose turn has not come yet have no condition on the text before them. -/
def turnOver (type : Str) (is : List Nat) (e : JNode) : Prop := isPubId type e = true ∧ e.id ∉ is

theorem shallow_turnOver (type : Str) (is : List Nat) : Shallow (turnOver type is) := by
  intro n n' h1 h2 h3 ⟨h4, h5⟩
  exact ⟨shallow_pubId type n n' h1 h2 h3 h4, by rw [h1]; exact h5⟩

theorem shallow_selected (type : Str) (S : List Nat) : Shallow (fun e => e.id ∈ S → isPubId type e = true) := by
  intro n n' h1 h2 h3 h h4
  rw [h1] at h4
  exact shallow_pubId type n n' h1 h2 h3 (h h4)

theorem nodup_around {l r : List JNode} {el : JNode} (h : (jIds (l ++ el :: r)).Nodup) :
    ∀ m ∈ jAlls l ++ (jAlls el.children ++ jAlls r), m.id ≠ el.id := by
  rw [jIds_append, jIds_cons] at h
  intro m hm he
  rw [List.nodup_append] at h
  obtain ⟨_, h2, h3⟩ := h
  rw [List.nodup_cons] at h2
  rcases List.mem_append.1 hm with hm | hm
  · exact h3 m.id (List.mem_map_of_mem hm) el.id List.mem_cons_self he
  · apply h2.1
    rw [← he]
    rcases List.mem_append.1 hm with hm | hm
    · exact List.mem_append_left _ (List.mem_map_of_mem hm)
    · exact List.mem_append_right _ (List.mem_map_of_mem hm)

/-- After the step for the text of DOIs there is text before each of them. -/
theorem doiStep_lists (env : JatsEnv) (hfind : ∀ s, ∃ o, fixFind env .doi s = .ok o) (S : List Nat) :
    ∀ (is : List Nat) (n : JNode), (∀ i ∈ is, i ∈ S) → (jIds n.children).Nodup →
      Lists (GoodList (fun e => isPubId c!"doi" e = true) (turnOver c!"doi" is) (fun e => e.id ∈ S → isPubId c!"doi" e = true))
        n.text n.children →
      ∃ n', runIds env .doi is n = .ok n' ∧ (jIds n'.children).Nodup ∧
        Lists (GoodList (fun e => isPubId c!"doi" e = true) (turnOver c!"doi" []) (fun e => e.id ∈ S → isPubId c!"doi" e = true))
          n'.text n'.children
  | [], n, _, hn, hl => ⟨n, rfl, hn, hl⟩
  | i :: is, n, hS, hn, hl => by
    have hone : ∀ m : JNode, m.id ≠ i → turnOver c!"doi" is m → turnOver c!"doi" (i :: is) m := by
      intro m hm h
      refine ⟨h.1, fun hc => ?_⟩
      rcases List.mem_cons.1 hc with hc | hc
      · exact hm hc
      · exact h.2 hc
    obtain ⟨n', b, e1, e2, _⟩ := editAt_lists (U := fun l => l.Nodup) i (fixOp env .doi (freshId n))
      (L := GoodList (fun e => isPubId c!"doi" e = true) (turnOver c!"doi" (i :: is)) (fun e => e.id ∈ S → isPubId c!"doi" e = true))
      (L' := GoodList (fun e => isPubId c!"doi" e = true) (turnOver c!"doi" is) (fun e => e.id ∈ S → isPubId c!"doi" e = true))
      (fun a b hs h => hs.nodup h)
      (fun t cs cs' => goodList_similar (shallow_pubId _) (shallow_turnOver _ _) (shallow_selected _ _) t cs cs')
      (fun t cs hne h => ⟨h.1, walk_E (fun e he => hone e (hne e he)) h.2⟩)
      (fun c hc hu h => by
        refine changeOp_lists (shallow_pubId _) (shallow_turnOver _ _) (shallow_selected _ _) (fun m hm => hm.1) hfind c (.inl ?_) ?_ h
        · exact (goodList_split h.1).2.1.1 (by rw [hc]; exact hS i List.mem_cons_self)
        · intro m hm
          exact hone m (by rw [← hc]; exact nodup_around hu m hm)) n hn hl
    have hs := (editAt_ids (R := fun a b => a.Sublist b) i _ (List.Sublist.refl _)
      (fun x a b c d h1 h2 => List.Sublist.cons_cons x (h1.append h2)) (fun c _ t cs b h => changeOp_ids c t cs b h) n n' b e1).1
    have hb : b = false := editAt_stop i _ (fun c t cs b h => changeOp_stop c t cs b h) n n' b e1
    unfold runIds
    rw [e1]
    subst hb
    exact doiStep_lists env hfind S is n' (fun i hi => hS i (List.mem_cons_of_mem _ hi)) (hs.nodup hn) e2

/-! ### Links -/

theorem le_foldMax (l : List Nat) : ∀ (a x : Nat), x ≤ a ∨ x ∈ l → x ≤ l.foldl max a := by
  induction l with
  | nil => intro a x h; rcases h with h | h; exact h; cases h
  | cons y l ih =>
    intro a x h
    apply ih
    rcases h with h | h
    · exact .inl (by omega)
    · rcases List.mem_cons.1 h with rfl | h
      · exact .inl (by omega)
      · exact .inr h

theorem id_lt_freshId (n : JNode) (x : Nat) (h : x = n.id ∨ x ∈ jIds n.children) : x < freshId n := by
  unfold freshId
  apply Nat.lt_succ_of_le
  apply le_foldMax
  refine .inr ?_
  rw [jAll_eq, List.map_cons]
  rcases h with rfl | h
  · exact List.mem_cons_self
  · exact List.mem_cons_of_mem _ h

theorem doiLinkOp_lists (env : JatsEnv) (S : List Nat) (fresh : Nat) (hfr : fresh ∉ S) (c : JCtx) (hc : c.el.id ∈ S)
    (h : Lists (GoodList (fun e => isPubId c!"doi" e = true) (fun e => isPubId c!"doi" e = true)
      (fun e => e.id ∈ S → isPubId c!"doi" e = true)) c.text (c.left ++ c.el :: c.right)) :
    ∃ t' cs' b, doiLinkOp env fresh c = .ok (t', cs', b) ∧
      Lists (GoodList (fun e => isPubId c!"doi" e = true) (fun e => isPubId c!"doi" e = true)
        (fun e => e.id ∈ S → isPubId c!"doi" e = true)) t' cs' ∧ (c.text.isSome = true → t'.isSome = true) := by
  have hK := shallow_selected c!"doi" S
  have hD := shallow_pubId c!"doi"
  obtain ⟨a1, a2, a3, a4, a5, a6, a7⟩ := goodList_split h.1
  obtain ⟨b1, b2, b3⟩ := (jAlls_split _ _ _).1 h.2
  have hd : isPubId c!"doi" c.el = true := a2.1 hc
  unfold doiLinkOp
  cases hp : previousText c.text c.left with
  | none => rw [hp] at a6; cases a6 hd
  | some prev =>
    simp only
    cases hu : env.doiUrlPrefix prev with
    | none => exact ⟨_, _, _, rfl, h, fun h => h⟩
    | some p =>
      obtain ⟨start, stop⟩ := p
      cases ht : c.el.text with
      | none => have := a2.2 hd; rw [ht] at this; cases this
      | some text =>
        simp only
        refine ⟨_, _, _, rfl, ?_, fun hs => setPreviousText_some _ _ _ hs⟩
        have hmem := setPreviousText_mem c.text c.left (some (prev.take start))
        have hnot : ¬ isPubId c!"doi" (extLinkElement env.cc fresh (prev.drop start ++ text) c.el.tail) = true := by
          intro hx
          unfold isPubId extLinkElement at hx
          rw [Bool.and_eq_true] at hx
          have hx1 : c!"ext-link" = c!"pub-id" := of_decide_eq_true hx.1
          exact absurd hx1 (by decide)
        refine ⟨goodList_join ?_ ⟨fun hx => absurd hx hfr, fun hx => absurd hx hnot⟩ a3 (setPreviousText_walk hD hD _ _ _ a4)
          (fun hx => absurd hx hnot) (fun hx => absurd hx hnot) ?_, ?_⟩
        · intro e he
          obtain ⟨e0, e1, e2, e3, e4, e5, _⟩ := hmem e he
          obtain ⟨q1, q2⟩ := a1 e0 e1
          exact ⟨hK _ _ e2 e3 e4 q1, fun hd => by rw [e5]; exact q2 (hD _ _ e2.symm e3.symm e4.symm hd)⟩
        · cases hr : c.right with
          | nil => trivial
          | cons e r =>
            rw [hr] at a7
            refine ⟨fun _ p hp' hdp => ?_, fun he => ?_, a7.2.2⟩
            · obtain rfl := Option.some.inj hp'
              exact absurd hdp hnot
            · have := a7.1 he c.el rfl hd
              show (if truthy c.el.tail then c.el.tail else none).isSome = true
              rw [if_pos this]
              cases htl : c.el.tail with
              | none => rw [htl] at this; cases this
              | some => rfl
        · rw [jAlls_split]
          refine ⟨?_, ⟨⟨(fun e he => by cases he), trivial⟩, (fun m hm => by cases hm)⟩, b3⟩
          exact jAlls_mem_of_children (fun e he => by obtain ⟨e0, e1, _, _, _, e5, e6⟩ := hmem e he; exact ⟨e0, e1, e5, e6⟩) b1

theorem doiLinkOp_ids (env : JatsEnv) (N fresh : Nat) (hfr : N ≤ fresh) (c : JCtx) (t : Option Str) (cs : List JNode) (b : Bool)
    (h : doiLinkOp env fresh c = .ok (t, cs, b)) (hx : ∃ x ∈ jIds (c.left ++ c.el :: c.right), N ≤ x) : ∃ x ∈ jIds cs, N ≤ x := by
  unfold doiLinkOp at h
  split at h
  · cases h
  · split at h
    · cases h; exact hx
    · split at h
      · cases h
      · cases h
        refine ⟨fresh, ?_, hfr⟩
        show fresh ∈ jIds ((setPreviousText c.text c.left _).2 ++ extLinkElement env.cc fresh _ _ :: c.right)
        rw [jIds_append, jIds_cons]
        exact List.mem_append_right _ List.mem_cons_self

theorem doiLinkStep_ok (env : JatsEnv) (S : List Nat) (N : Nat) (hN : ∀ i ∈ S, i ≤ N) :
    ∀ (is : List Nat) (n : JNode), (∀ i ∈ is, i ∈ S) → (∃ x ∈ jIds n.children, N ≤ x) →
      Lists (GoodList (fun e => isPubId c!"doi" e = true) (fun e => isPubId c!"doi" e = true)
        (fun e => e.id ∈ S → isPubId c!"doi" e = true)) n.text n.children →
      ∃ n', runIds env .doiLink is n = .ok n'
  | [], n, _, _, _ => ⟨n, rfl⟩
  | i :: is, n, hS, hx, hl => by
    have hfr : N < freshId n := by
      obtain ⟨x, hx1, hx2⟩ := hx
      have := id_lt_freshId n x (.inr hx1)
      omega
    obtain ⟨n', b, e1, e2, _⟩ := editAt_lists (U := fun _ => True) i (fixOp env .doiLink (freshId n))
      (fun _ _ _ _ => trivial)
      (fun t cs cs' => goodList_similar (shallow_pubId _) (shallow_pubId _) (shallow_selected _ _) t cs cs')
      (fun t cs _ h => h)
      (fun c hc _ h => doiLinkOp_lists env S (freshId n) (fun hf => by have := hN _ hf; omega) c
        (by rw [hc]; exact hS i List.mem_cons_self) h) n trivial hl
    have hs := (editAt_ids (R := fun a b => (∃ x ∈ b, N ≤ x) → ∃ x ∈ a, N ≤ x) i _ (fun h => h)
      (fun x a b c d h1 h2 h => by
        obtain ⟨y, hy, hy2⟩ := h
        rcases List.mem_cons.1 hy with rfl | hy
        · exact ⟨y, List.mem_cons_self, hy2⟩
        · rcases List.mem_append.1 hy with hy | hy
          · obtain ⟨z, hz, hz2⟩ := h1 ⟨y, hy, hy2⟩
            exact ⟨z, List.mem_cons_of_mem _ (List.mem_append_left _ hz), hz2⟩
          · obtain ⟨z, hz, hz2⟩ := h2 ⟨y, hy, hy2⟩
            exact ⟨z, List.mem_cons_of_mem _ (List.mem_append_right _ hz), hz2⟩)
      (fun c _ t cs b h => doiLinkOp_ids env N (freshId n) (by omega) c t cs b h) n n' b e1).1 hx
    unfold runIds
    rw [e1]
    cases b with
    | true => exact ⟨n', rfl⟩
    | false => exact doiLinkStep_ok env S N hN is n' (fun i hi => hS i (List.mem_cons_of_mem _ hi)) hs e2

/-! ### Upper and lower case -/

theorem lowerTypeOp_el (env : JatsEnv) (hlow : ∀ k ∈ knownPubIdTypes, env.lower k = k) (c : JCtx) :
    ∃ el', lowerTypeOp env c = .ok (c.text, c.left ++ el' :: c.right, false) ∧ el'.id = c.el.id ∧ el'.text = c.el.text ∧
      el'.children = c.el.children ∧ el'.tail = c.el.tail ∧ (DoiAnnotation env el' → DoiAnnotation env c.el) := by
  unfold lowerTypeOp
  refine ⟨_, rfl, ?_⟩
  split
  · next h =>
    refine ⟨by cases c.el; rfl, by cases c.el; rfl, by cases c.el; rfl, by cases c.el; rfl, ?_⟩
    rw [Bool.and_eq_true] at h
    obtain ⟨h1, h2⟩ := h
    cases ht : c.el.attrs.get? c!"pub-id-type" with
    | none => rw [ht] at h1; cases h1
    | some type =>
      have h2 : env.lower type ∈ knownPubIdTypes := by rw [ht] at h2; exact of_decide_eq_true h2
      intro ⟨d1, type', d2, d3⟩
      have e1 : ∀ (e : JNode) x, (e.setAttrs x).tag = e.tag := fun e x => by cases e; rfl
      have e2 : ∀ (e : JNode) x, (e.setAttrs x).attrs = x := fun e x => by cases e; rfl
      rw [e1] at d1
      rw [e2, Dict.get?_set_self] at d2
      have d2 : env.lower type = type' := Option.some.inj d2
      refine ⟨d1, type, ht, .inr ?_⟩
      rcases d3 with d3 | d3
      · rw [d2, d3]
      · rw [← d2, hlow _ h2] at d3
        exact d3
  · exact ⟨rfl, rfl, rfl, rfl, fun h => h⟩

theorem lowerTypeOp_lists (env : JatsEnv) (hlow : ∀ k ∈ knownPubIdTypes, env.lower k = k) (c : JCtx)
    (h : Lists (GoodList (DoiAnnotation env) (fun _ => False) (fun _ => True)) c.text (c.left ++ c.el :: c.right)) :
    ∃ t' cs' b, lowerTypeOp env c = .ok (t', cs', b) ∧
      Lists (GoodList (DoiAnnotation env) (fun _ => False) (fun _ => True)) t' cs' ∧ (c.text.isSome = true → t'.isSome = true) := by
  obtain ⟨el', e1, e2, e3, e4, e5, e6⟩ := lowerTypeOp_el env hlow c
  obtain ⟨a1, a2, a3, a4, a5, a6, a7⟩ := goodList_split h.1
  obtain ⟨b1, b2, b3⟩ := (jAlls_split _ _ _).1 h.2
  refine ⟨_, _, _, e1, ⟨goodList_join a1 ⟨trivial, fun hd => by rw [e3]; exact a2.2 (e6 hd)⟩ a3 a4 (fun hd => a5 (e6 hd))
    (fun hf => hf.elim) ?_, (jAlls_split _ _ _).2 ⟨b1, by rw [e3, e4]; exact b2, b3⟩⟩, fun h => h⟩
  refine walk_q ?_ (fun h => by rw [e5]; exact h) a7
  intro p' hp' hd'
  obtain rfl := Option.some.inj hp'
  exact ⟨c.el, rfl, e6 hd', fun h => by rw [e5]; exact h⟩

theorem lowerTypeOp_ids (env : JatsEnv) (hlow : ∀ k ∈ knownPubIdTypes, env.lower k = k) (c : JCtx) (t : Option Str) (cs : List JNode) (b : Bool)
    (h : lowerTypeOp env c = .ok (t, cs, b)) : jIds cs = jIds (c.left ++ c.el :: c.right) := by
  obtain ⟨el', e1, e2, _, e4, _⟩ := lowerTypeOp_el env hlow c
  rw [e1] at h
  cases h
  rw [jIds_append, jIds_append, jIds_cons, jIds_cons, e2, e4]

/-! ### C80 -/

theorem walk_of_splits {D : JNode → Prop} (cs : List JNode)
    (h : ∀ l e r, cs = l ++ e :: r → D e → ∀ p, l.getLast? = some p → D p → truthy p.tail = true) (t : Option Str) :
    Walk D (fun _ => False) none t cs := by
  have key : ∀ (r pre : List JNode) (t : Option Str), cs = pre ++ r → Walk D (fun _ => False) pre.getLast? t r := by
    intro r
    induction r with
    | nil => intro _ _ _; trivial
    | cons e r ih =>
      intro pre t hcs
      refine ⟨fun hd p hp hdp => h pre e r hcs hd p hp hdp, fun h => h.elim, ?_⟩
      have := ih (pre ++ [e]) e.tail (by rw [hcs]; simp)
      rw [List.getLast?_concat] at this
      exact this
  exact key cs [] t rfl

theorem selected_pubId {type : Str} {n : JNode} (hn : (jIds n.children).Nodup) :
    ∀ m ∈ jAlls n.children, m.id ∈ selectIds (isPubId type) n → isPubId type m = true := by
  intro m hm hs
  obtain ⟨e, he, hid⟩ := List.mem_map.1 hs
  obtain ⟨he1, he2⟩ := List.mem_filter.1 he
  obtain ⟨i, hi⟩ := List.mem_iff_getElem?.1 hm
  obtain ⟨j, hj⟩ := List.mem_iff_getElem?.1 he1
  have : i = j := by
    have hlt : i < (jIds n.children).length := by
      unfold jIds
      rw [List.length_map]
      exact (List.getElem?_eq_some_iff.1 hi).1
    refine (List.getElem?_inj hlt hn).1 ?_
    unfold jIds
    rw [List.getElem?_map, List.getElem?_map, hi, hj]
    simp [hid]
  subst this
  rw [hi] at hj
  rw [Option.some.inj hj]
  exact he2

theorem lists_weaken {D D' E K K' : JNode → Prop} {t : Option Str} {cs : List JNode} (hD : ∀ e, D' e → D e)
    (hK : ∀ e ∈ jAlls cs, K e → K' e) (h : Lists (GoodList D E K) t cs) : Lists (GoodList D' E K') t cs :=
  ⟨goodList_weaken hD (fun e he => hK e (mem_jAlls_self he)) h.1,
    fun m hm => goodList_weaken hD (fun e he => hK e (jAlls_trans hm he)) (h.2 m hm)⟩

/-- **C80.** A reference can be fixed if its DOI annotations have text and none directly follows another one. -/
theorem C80_succeeds (env : JatsEnv) (hcc : DigitsPlain env.cc) (h10 : ∀ c ∈ c!"10.", env.cc.isSpace c = false)
    (ht : TruncatesAtGap env.toJatsTextEnv) (hlow : ∀ k ∈ knownPubIdTypes, env.lower k = k) (n : JNode)
    (hid : ((jAll n).map (·.id)).Nodup) (h : DoisApart env n) : ∃ n', fixReference env n = .ok n' := by
  have hfind := fun k s => fixFind_ok env hcc h10 ht k s
  have hn0 : (jIds n.children).Nodup := by
    rw [jAll_eq, List.map_cons, List.nodup_cons] at hid
    exact hid.2
  have hl0 : Lists (GoodList (DoiAnnotation env) (fun _ => False) (fun _ => True)) n.text n.children := by
    have one : ∀ m ∈ jAll n, GoodList (DoiAnnotation env) (fun _ => False) (fun _ => True) m.text m.children := by
      intro m hm
      refine ⟨fun e he => ⟨trivial, fun hd => ?_⟩, walk_of_splits _ (fun l e r hcs hd p hp hdp => ?_) _⟩
      · obtain ⟨l, r, hcs⟩ := List.append_of_mem he
        obtain ⟨⟨s, hs⟩, _⟩ := h m hm l e r hcs hd
        rw [hs]
        rfl
      · obtain ⟨_, h2⟩ := h m hm l e r hcs hd
        obtain ⟨c, s, hs⟩ := h2 p hp hdp
        rw [hs]
        rfl
    rw [jAll_eq] at one
    exact ⟨one n List.mem_cons_self, fun m hm => one m (List.mem_cons_of_mem _ hm)⟩
  have hA := shallow_annotation env
  have hsim := goodList_similar hA shallow_false shallow_true
  -- the case of types
  obtain ⟨n1, r1, hn1, hl1⟩ := runIds_lists env .lowerType hsim
    (fun _ c t cs b h => by rw [lowerTypeOp_ids env hlow c t cs b h]; exact List.Sublist.refl _)
    (fun _ c h => lowerTypeOp_lists env hlow c h) (fixSelect .lowerType n) n hn0 hl0
  -- titles
  obtain ⟨n2, r2, hn2, hl2⟩ := runIds_lists env .title hsim (fun _ c t cs b h => changeOp_ids (find := fixFind env .title) c t cs b h)
    (fun _ c h => changeOp_lists hA shallow_false shallow_true (fun _ h => h.elim) (hfind .title) c
      (.inr (fun s hs => by cases hs)) (fun _ _ h => h) h) (fixSelect .title n1) n1 hn1 hl1
  obtain ⟨n3, r3, hn3, hl3⟩ := runIds_lists env .titleQuotes hsim
    (fun _ c t cs b h => by rw [titleQuotesOp_ids c t cs b h]; exact List.Sublist.refl _)
    (fun _ c h => titleQuotesOp_lists hA shallow_false shallow_true c h) (fixSelect .titleQuotes n2) n2 hn2 hl2
  -- DOIs
  have hdoi : ∀ e, isPubId c!"doi" e = true → DoiAnnotation env e := by
    intro e he
    unfold isPubId at he
    rw [Bool.and_eq_true] at he
    exact ⟨of_decide_eq_true he.1, _, of_decide_eq_true he.2, .inl rfl⟩
  obtain ⟨n4, r4, hn4, hl4⟩ := doiStep_lists env (hfind .doi) (fixSelect .doi n3) (fixSelect .doi n3) n3 (fun i hi => hi) hn3 (by
    refine lists_E (E := fun _ => False) (fun m hm hm' => hm'.2 ?_) (lists_weaken hdoi (fun e he _ => selected_pubId hn3 e he) hl3)
    exact List.mem_map.2 ⟨m, List.mem_filter.2 ⟨hm, hm'.1⟩, rfl⟩)
  have hl4' : Lists (GoodList (fun e => isPubId c!"doi" e = true) (fun e => isPubId c!"doi" e = true)
      (fun e => e.id ∈ fixSelect .doiLink n4 → isPubId c!"doi" e = true)) n4.text n4.children :=
    lists_E (fun m _ h => ⟨h, by simp⟩) (lists_weaken (fun _ h => h) (fun e he _ => selected_pubId hn4 e he) hl4)
  have r5 : ∃ n5, runIds env .doiLink (fixSelect .doiLink n4) n4 = .ok n5 := by
    cases hsel : fixSelect .doiLink n4 with
    | nil => exact ⟨n4, rfl⟩
    | cons i is =>
      rw [← hsel]
      have hsub : ∀ j ∈ fixSelect .doiLink n4, j ∈ jIds n4.children := by
        intro j hj
        obtain ⟨e, he, rfl⟩ := List.mem_map.1 hj
        exact List.mem_map_of_mem (List.mem_filter.1 he).1
      have hne : jIds n4.children ≠ [] := by
        intro hnil
        have := hsub i (by rw [hsel]; exact List.mem_cons_self)
        rw [hnil] at this
        cases this
      obtain ⟨N, hN1, hN2⟩ : ∃ N ∈ jIds n4.children, ∀ x ∈ jIds n4.children, x ≤ N := by
        cases hm : (jIds n4.children).max? with
        | none => exact absurd (List.max?_eq_none_iff.1 hm) hne
        | some N => exact ⟨N, (List.max?_eq_some_iff.1 hm).1, (List.max?_eq_some_iff.1 hm).2⟩
      exact doiLinkStep_ok env (fixSelect .doiLink n4) N (fun j hj => hN2 j (hsub j hj)) (fixSelect .doiLink n4) n4 (fun j hj => hj)
        ⟨N, hN1, Nat.le_refl _⟩ hl4'
  obtain ⟨n5, r5⟩ := r5
  -- all other steps
  have hrest : ∀ k, k ≠ JatsFix.doiLink → ∀ (is : List Nat) (n : JNode), ∃ n', runIds env k is n = .ok n' := by
    intro k hk is
    induction is with
    | nil => intro n; exact ⟨n, rfl⟩
    | cons i is ih =>
      intro n
      obtain ⟨⟨n', b⟩, hx⟩ := editAt_ok i (fixOp env k (freshId n)) (fun c => by
        cases hc : fixOp env k (freshId n) c with
        | error e => exact absurd (C80_failures_partial env hcc h10 ht k _ c e hc).1 hk
        | ok x => exact ⟨x, rfl⟩) n
      unfold runIds
      rw [hx]
      cases b with
      | true => exact ⟨n', rfl⟩
      | false => exact ih n'
  have hfixes : ∀ (ks : List JatsFix), JatsFix.doiLink ∉ ks → ∀ n, ∃ n', runFixes env ks n = .ok n' := by
    intro ks
    induction ks with
    | nil => intro _ n; exact ⟨n, rfl⟩
    | cons k ks ih =>
      intro hk n
      rw [List.mem_cons, not_or] at hk
      obtain ⟨n', hx⟩ := hrest k (fun h => hk.1 h.symm) (fixSelect k n) n
      unfold runFixes runFix
      rw [hx]
      exact ih hk.2 n'
  unfold fixReference fixSteps
  unfold runFixes runFix
  simp only [r1]
  unfold runFixes runFix
  simp only [r2]
  unfold runFixes runFix
  simp only [r3]
  unfold runFixes runFix
  simp only [r4]
  unfold runFixes runFix
  simp only [r5]
  exact hfixes _ (by decide) n5

/-- Not vacuous: two DOIs with text between them, the first given as URL. -/
example : DoisApart jatsFixExampleEnv (jRef (some c!"https://doi.org/")
      [jPubId 2 c!"doi" (some c!"10.1234/a") [] (some c!", "), jPubId 3 c!"DOI" (some c!"10.1234/b") [] none]) ∧
    ∃ n', fixReference jatsFixExampleEnv (jRef (some c!"https://doi.org/")
      [jPubId 2 c!"doi" (some c!"10.1234/a") [] (some c!", "), jPubId 3 c!"DOI" (some c!"10.1234/b") [] none]) = .ok n' ∧
      (jAll n').map (·.tag) = [c!"ref", c!"mixed-citation", c!"ext-link", c!"pub-id"] := by
  refine ⟨?_, exists_of_okAnd (by decide +kernel)⟩
  intro m hm l e r hcs hd
  have hm : m ∈ [jRef (some c!"https://doi.org/") [jPubId 2 c!"doi" (some c!"10.1234/a") [] (some c!", "), jPubId 3 c!"DOI" (some c!"10.1234/b") [] none],
      jEl 1 c!"mixed-citation" (some c!"https://doi.org/")
        [jPubId 2 c!"doi" (some c!"10.1234/a") [] (some c!", "), jPubId 3 c!"DOI" (some c!"10.1234/b") [] none] none,
      jPubId 2 c!"doi" (some c!"10.1234/a") [] (some c!", "), jPubId 3 c!"DOI" (some c!"10.1234/b") [] none] := hm
  rcases List.mem_cons.1 hm with rfl | hm
  · have hcs : [jEl 1 c!"mixed-citation" _ _ _] = l ++ e :: r := hcs
    cases l with
    | nil =>
      cases hcs
      exact absurd hd.1 (by decide +kernel)
    | cons x l => cases l <;> cases hcs
  · rcases List.mem_cons.1 hm with rfl | hm
    · have hcs : [jPubId 2 c!"doi" (some c!"10.1234/a") [] (some c!", "), jPubId 3 c!"DOI" (some c!"10.1234/b") [] none] = l ++ e :: r := hcs
      cases l with
      | nil =>
        cases hcs
        exact ⟨⟨_, rfl⟩, fun p hp => by cases hp⟩
      | cons x l =>
        cases l with
        | nil =>
          cases hcs
          refine ⟨⟨_, rfl⟩, fun p hp _ => ?_⟩
          cases hp
          exact ⟨_, _, rfl⟩
        | cons y l => cases l <;> cases hcs
    · rcases List.mem_cons.1 hm with rfl | hm
      · exact absurd hcs (by intro h; cases l <;> cases h)
      · rw [List.mem_singleton.1 hm] at hcs
        exact absurd hcs (by intro h; cases l <;> cases h)

end Verif
