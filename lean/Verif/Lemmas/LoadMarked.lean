/-
A loaded document starts its entities with the begin prefix: the elements written start with text
that is not white space.
-/
import Verif.Lemmas.SaveAgain

namespace Verif
open Spec

/-! ### Blocks -/

mutual
theorem blocks_closed (cc : CharClass) (rp : List Str) (addr : List Nat) (chain : List (Str × Dict Str)) (e : Elem)
    (b : TagBlock) (hb : b ∈ tagBlocks cc rp addr chain e) (i : List Nat × Str) (hi : b.1 = some i)
    (it : Item) (hit : it ∈ itemsElem addr chain e) (hp : i.1 <+: it.addr) : it ∈ b.2 := by
  match e with
  | .mk t a x cs tl =>
    rw [tagBlocks] at hb
    split at hb
    · rw [List.mem_singleton.1 hb]; exact hit
    · rcases List.mem_cons.1 hb with rfl | hb
      · cases hi
      · rw [itemsElem] at hit
        rcases List.mem_append.1 hit with hit | hit
        · exfalso
          have hl := blocksList_deeper cc rp addr chain 0 cs b hb i hi
          rw [mem_textAt hit] at hp
          have := hp.length_le
          omega
        · exact blocksList_closed cc rp addr chain 0 cs b hb i hi it hit hp
theorem blocksList_deeper (cc : CharClass) (rp : List Str) (addr : List Nat) (chain : List (Str × Dict Str)) (n : Nat)
    (es : List Elem) (b : TagBlock) (hb : b ∈ tagBlocksList cc rp addr chain n es) (i : List Nat × Str)
    (hi : b.1 = some i) : addr.length < i.1.length := by
  match es with
  | [] => cases hb
  | .mk t a x cs tl :: es =>
    rw [tagBlocksList] at hb
    simp only [List.mem_append, List.mem_singleton] at hb
    rcases hb with ((hb | hb) | hb) | hb
    · rw [hb] at hi; cases hi
    · have := (blocks_addr cc rp _ _ _ b hb i hi).length_le
      simp at this
      omega
    · rw [hb] at hi; cases hi
    · exact blocksList_deeper cc rp addr chain (n + 1) es b hb i hi
theorem blocksList_closed (cc : CharClass) (rp : List Str) (addr : List Nat) (chain : List (Str × Dict Str)) (n : Nat)
    (es : List Elem) (b : TagBlock) (hb : b ∈ tagBlocksList cc rp addr chain n es) (i : List Nat × Str)
    (hi : b.1 = some i) (it : Item) (hit : it ∈ itemsList addr chain n es) (hp : i.1 <+: it.addr) : it ∈ b.2 := by
  match es with
  | [] => cases hb
  | .mk t a x cs tl :: es =>
    have hdeep := blocksList_deeper cc rp addr chain n _ b hb i hi
    have hpl := hp.length_le
    rw [tagBlocksList] at hb
    rw [itemsList] at hit
    simp only [List.mem_append, List.mem_singleton] at hb hit
    have hn1 : ¬ it.addr = addr := fun h => by rw [h] at hpl; omega
    have hit' : it ∈ itemsElem (addr ++ [n]) (chain ++ [(t, a)]) (.mk t a x cs tl) ∨ it ∈ itemsList addr chain (n + 1) es := by
      rcases hit with ((hit | hit) | hit) | hit
      · split at hit
        · rw [List.mem_singleton.1 hit] at hn1; exact absurd rfl hn1
        · cases hit
      · exact .inl hit
      · exact absurd (mem_textAt hit) hn1
      · exact .inr hit
    have hclash : ∀ k r, addr ++ [k] <+: it.addr → it.addr = addr ++ n :: r → k = n := by
      intro k r ⟨r', h1⟩ h2
      rw [h2, List.append_assoc, List.append_cancel_left_eq] at h1
      simp at h1
      exact h1.1
    rcases hb with ((hb | hb) | hb) | hb
    · rw [hb] at hi; cases hi
    · rcases hit' with hit | hit
      · exact blocks_closed cc rp _ _ _ b hb i hi it hit hp
      · exfalso
        have h1 := (blocks_addr cc rp _ _ _ b hb i hi).trans hp
        rcases itemsList_addr _ _ _ _ it hit with h | ⟨k, r, h, hk, _⟩
        · exact hn1 h
        · obtain ⟨r', h1⟩ := h1
          rw [h, List.append_assoc, List.append_cancel_left_eq] at h1
          simp at h1
          omega
    · rw [hb] at hi; cases hi
    · rcases hit' with hit | hit
      · exfalso
        obtain ⟨k, hk, h1⟩ := blocksList_addr cc rp addr chain (n + 1) es b hb i hi
        obtain ⟨r, _, h2, _⟩ := itemsElem_below _ _ _ it hit
        have := hclash k r (h1.trans hp) (by rw [h2]; simp)
        omega
      · exact blocksList_closed cc rp addr chain (n + 1) es b hb i hi it hit hp
end

/-- Everything in an outermost tagged element has this outermost tagged element. -/
theorem outerInfo_prefix (cc : CharClass) (rp : List Str) (f : Frame) (it it' : Item) (h : it ∈ Spec.items f.close)
    (h' : it' ∈ Spec.items f.close) (i : List Nat × Str) (hi : outerInfo cc rp (Spec.items f.close) 1 it = some i)
    (hp : i.1 <+: it'.addr) : outerInfo cc rp (Spec.items f.close) 1 it' = some i := by
  have hb : ∀ b ∈ rootBlocks cc rp f, ∀ it ∈ b.2, outerInfo cc rp (Spec.items f.close) 1 it = b.1 :=
    fun b hb it hit => blocks_info cc rp (Spec.items f.close) f.close [] [] rfl (fun _ _ => rfl) b hb it hit
  have hm : it ∈ (rootBlocks cc rp f).flatMap (·.2) := by
    rw [rootBlocks, blocks_items]; exact h
  obtain ⟨b, hbm, hit⟩ := List.mem_flatMap.1 hm
  have h1 := hb b hbm it hit
  rw [hi] at h1
  have h2 := blocks_closed cc rp [] [] f.close b hbm i h1.symm it' h' hp
  rw [hb b hbm it' h2, h1]

theorem outerInfo_above {cc : CharClass} {rp : List Str} {all : List Item} {d : Nat} {it : Item} {i : List Nat × Str}
    (h : outerInfo cc rp all d it = some i) : i.1 <+: it.addr ∧ d ≤ i.1.length := by
  unfold outerInfo at h
  rw [Option.map_eq_some_iff] at h
  obtain ⟨k, hk, rfl⟩ := h
  have hm := List.mem_of_find?_eq_some hk
  refine ⟨List.take_prefix _ _, ?_⟩
  have := List.mem_range'_1.1 hm
  simp only [List.length_take]
  omega

/-! ### Elements start with text -/

theorem flatMap_split {α β : Type} (g : α → List β) (l : List α) (pre : List β) (y : β) (post : List β)
    (h : l.flatMap g = pre ++ y :: post) :
    ∃ l1 x l2 a b, l = l1 ++ x :: l2 ∧ g x = a ++ y :: b ∧ pre = l1.flatMap g ++ a := by
  induction l generalizing pre with
  | nil => simp at h
  | cons x l ih =>
    rw [List.flatMap_cons] at h
    rcases split_append h with ⟨pre', h1, h2⟩ | ⟨mid', _, h2⟩
    · obtain ⟨l1, x', l2, a, b, e1, e2, e3⟩ := ih pre' h2
      exact ⟨x :: l1, x', l2, a, b, by rw [e1]; rfl, e2, by rw [h1, e3]; simp⟩
    · exact ⟨[], x, l, pre, mid', rfl, h2, rfl⟩

theorem first_text (cc : CharClass) (ps : List Piece) :
    noText cc ps ∨ ∃ mid q rest u, ps = mid ++ q :: rest ∧ q.tok = some u ∧ blank cc u = false ∧ noText cc mid := by
  induction ps with
  | nil => exact .inl (by intro p hp; cases hp)
  | cons p ps ih =>
    cases hp : p.isText cc with
    | true =>
      unfold Piece.isText at hp
      cases ht : p.tok with
      | none => rw [ht] at hp; cases hp
      | some u =>
        rw [ht] at hp
        exact .inr ⟨[], p, ps, u, rfl, ht, by simpa using hp, by intro r hr; cases hr⟩
    | false =>
      rcases ih with ih | ⟨mid, q, rest, u, rfl, h1, h2, h3⟩
      · refine .inl ?_
        intro r hr
        rcases List.mem_cons.1 hr with rfl | hr
        · exact hp
        · exact ih r hr
      · refine .inr ⟨p :: mid, q, rest, u, rfl, h1, h2, ?_⟩
        intro r hr
        rcases List.mem_cons.1 hr with rfl | hr
        · exact hp
        · exact h3 r hr

/-- A text piece has a character. -/
theorem piece_char (cc : CharClass) (q : Piece) (u : Tok) (hq : q.tok = some u) (hb : blank cc u = false) :
    ∃ ch, (⟨q.addr, q.chain, some ch⟩ : Item) ∈ q.items := by
  obtain ⟨ch, hch, _⟩ := exists_char_of_text hb
  refine ⟨ch, ?_⟩
  unfold Piece.items
  rw [hq]
  exact List.mem_map.2 ⟨ch, hch, rfl⟩

/-- A white space character in an outermost tagged element comes after another character in it. -/
theorem space_after_text (cfg : DocCfg) (f : Frame) (lines : List (List Tok)) (ps : List Piece)
    (p1 : Spec.items f.close = ps.flatMap Piece.items)
    (p2 : ps.filterMap (·.tok) = lines.flatten)
    (p4 : GoodPieces cfg.cc cfg.mapping ps)
    (p5 : ∀ pre q mid b, ps = pre ++ q :: mid → noText cfg.cc mid → q.tok = some b → blank cfg.cc b = true → q.addr = [])
    (hd : ∀ t ∈ lines.flatten, blank cfg.cc t = false → Distinct cfg.cc cfg.mapping lines.flatten t)
    (hfirst : ∀ t ∈ lines.flatten, blank cfg.cc t = false → ∀ x s, t.text = x :: s → cfg.cc.isSpace x = false)
    (pre : List Item) (it : Item) (post : List Item) (hsplit : Spec.items f.close = pre ++ it :: post) (ch : Char)
    (hch : it.ch = some ch) (hsp : cfg.cc.isSpace ch = true) (i : List Nat × Str)
    (hi : outerInfo cfg.cc (cfg.mapping.map (·.2)) (Spec.items f.close) 1 it = some i) :
    ∃ it' ∈ pre, it'.ch ≠ none ∧ outerInfo cfg.cc (cfg.mapping.map (·.2)) (Spec.items f.close) 1 it' = some i := by
  have hmem : ∀ q ∈ ps, ∀ x ∈ q.items, x ∈ Spec.items f.close := by
    intro q hq x hx
    rw [p1]; exact List.mem_flatMap.2 ⟨q, hq, hx⟩
  have hitm : it ∈ Spec.items f.close := by rw [hsplit]; simp
  obtain ⟨hi1, hi2⟩ := outerInfo_above hi
  rw [p1] at hsplit
  obtain ⟨l1, p, l2, a, b, e1, e2, e3⟩ := flatMap_split Piece.items ps pre it post hsplit
  have hpm : p ∈ ps := by rw [e1]; simp
  cases hpt : p.tok with
  | none =>
    unfold Piece.items at e2
    rw [hpt] at e2
    have : it ∈ [(⟨p.addr, p.chain, none⟩ : Item)] := by
      rw [show [(⟨p.addr, p.chain, none⟩ : Item)] = a ++ it :: b from e2]; simp
    rw [List.mem_singleton.1 this] at hch
    cases hch
  | some t =>
    have htm : t ∈ lines.flatten := by
      rw [← p2, List.mem_filterMap]; exact ⟨p, hpm, hpt⟩
    have hitems : p.items = t.text.map (fun c => (⟨p.addr, p.chain, some c⟩ : Item)) := by
      unfold Piece.items
      rw [hpt]; rfl
    have hita : it.addr = p.addr := by
      have : it ∈ p.items := by rw [e2]; simp
      rw [hitems] at this
      obtain ⟨c', _, rfl⟩ := List.mem_map.1 this
      rfl
    cases hb : blank cfg.cc t with
    | false =>
      cases a with
      | nil =>
        exfalso
        rw [hitems] at e2
        cases hx : t.text with
        | nil => rw [hx] at e2; cases e2
        | cons x s =>
          rw [hx, List.map_cons, List.nil_append, List.cons.injEq] at e2
          rw [← e2.1] at hch
          cases hch
          have := hfirst t htm hb ch s hx
          rw [hsp] at this; cases this
      | cons x a =>
        have hx : x ∈ p.items := by rw [e2]; simp
        refine ⟨x, by rw [e3]; simp, ?_, ?_⟩
        · rw [hitems] at hx
          obtain ⟨c', _, rfl⟩ := List.mem_map.1 hx
          simp
        · refine outerInfo_prefix cfg.cc _ f it x hitm (hmem p hpm x hx) i hi ?_
          rw [hitems] at hx
          obtain ⟨c', _, rfl⟩ := List.mem_map.1 hx
          rw [← hita]; exact hi1
    | true =>
      have hpne : p.addr ≠ [] := by
        intro h
        rw [hita, h] at hi1
        have := hi1.length_le
        simp at this
        rw [this] at hi2
        simp at hi2
      rcases first_text cfg.cc l2 with hno | ⟨mid, q, rest, u, e4, hqt, hqb, hmid⟩
      · exact absurd (p5 l1 p l2 t e1 hno hpt hb) hpne
      · have hqm : q ∈ ps := by rw [e1, e4]; simp
        have hum : u ∈ lines.flatten := by
          rw [← p2, List.mem_filterMap]; exact ⟨q, hqm, hqt⟩
        have hgood := p4 (l1 ++ p :: mid) q rest u (by rw [e1, e4]; simp) hqt hqb
        have hsp1 := hgood.space l1 p mid t rfl hmid hpt hb
        have hlen := hgood.len
        have hmne : mainPath cfg.mapping u ≠ [] := by
          intro h
          have h1 := (hd u hum hqb).main h
          rw [h1] at hlen
          have := hsp1.length_le
          exact hpne (List.length_eq_zero_iff.1 (by rw [hlen] at this; simpa using this))
        have hle := (tokenPath_eq cfg.mapping u).length_le
        rcases hgood.spaceAbove l1 p mid t rfl hmid hpt hb hmne with hlt | ⟨q', u', mid', ⟨⟨pre0, h0⟩, h1, h2, h3⟩, h4⟩
        · exfalso
          obtain ⟨ch', hx⟩ := piece_char cfg.cc q u hqt hqb
          have g1 := outerInfo_prefix cfg.cc _ f it _ hitm (hmem q hqm _ hx) i hi ((hita ▸ hi1).trans hsp1)
          have g2 := (outerInfo_piece cfg.cc cfg.mapping f ps _ p1 p2 p4 hd q hqm u hqt hqb ⟨q.addr, q.chain, some ch'⟩ rfl rfl).1
          rw [g1] at g2
          unfold mainAddr at g2
          rw [if_neg hmne] at g2
          simp only [Option.map_some, Option.some.injEq] at g2
          have := (hita ▸ hi1).length_le
          rw [g2] at this
          simp only [List.length_take] at this
          omega
        · obtain ⟨ch', hx⟩ := piece_char cfg.cc q' u' h1 h2
          have hql : q' ∈ l1 := by
            have hq' : q' ∈ l1 ++ p :: mid := by rw [h0]; simp
            rcases List.mem_append.1 hq' with hq' | hq'
            · exact hq'
            · exfalso
              have hbad : q'.isText cfg.cc = false := by
                rcases List.mem_cons.1 hq' with rfl | hq'
                · simp [Piece.isText, hpt, hb]
                · exact hmid q' hq'
              simp [Piece.isText, h1, h2] at hbad
          have hq'm : q' ∈ ps := by rw [e1]; simp [hql]
          refine ⟨_, ?_, ?_, outerInfo_prefix cfg.cc _ f it _ hitm (hmem q' hq'm _ hx) i hi ((hita ▸ hi1).trans h4)⟩
          · rw [e3, List.mem_append]
            exact .inl (List.mem_flatMap.2 ⟨q', hql, hx⟩)
          · simp

/-- The first character of an outermost tagged element is not white space. -/
theorem block_first (cc : CharClass) (rp : List Str) (f : Frame)
    (hafter : ∀ pre it post ch i, Spec.items f.close = pre ++ it :: post → it.ch = some ch → cc.isSpace ch = true →
      outerInfo cc rp (Spec.items f.close) 1 it = some i →
      ∃ it' ∈ pre, it'.ch ≠ none ∧ outerInfo cc rp (Spec.items f.close) 1 it' = some i)
    (b : TagBlock) (hb : b ∈ rootBlocks cc rp f) (hi : b.1 ≠ none) (x : Char) (s : Str) (hx : blockText b = x :: s) :
    cc.isSpace x = false := by
  apply Classical.byContradiction
  intro hsp
  have hsp : cc.isSpace x = true := by simpa using hsp
  have hinfo : ∀ b ∈ rootBlocks cc rp f, ∀ it ∈ b.2, outerInfo cc rp (Spec.items f.close) 1 it = b.1 :=
    fun b hb it hit => blocks_info cc rp (Spec.items f.close) f.close [] [] rfl (fun _ _ => rfl) b hb it hit
  have hit : Spec.items f.close = (rootBlocks cc rp f).flatMap (·.2) := (blocks_items cc rp [] [] f.close).symm
  have hnd : (blockAddrs (rootBlocks cc rp f)).Nodup := blocks_nodup cc rp [] [] f.close
  obtain ⟨i, hi⟩ : ∃ i, b.1 = some i := Option.ne_none_iff_exists'.1 hi
  obtain ⟨l1, l2, hl⟩ := List.append_of_mem hb
  unfold blockText at hx
  rw [List.filterMap_eq_cons_iff] at hx
  obtain ⟨a, it, c, e1, e2, e3, _⟩ := hx
  have hsplit : Spec.items f.close = (l1.flatMap (·.2) ++ a) ++ it :: (c ++ l2.flatMap (·.2)) := by
    rw [hit, hl, List.flatMap_append, List.flatMap_cons, e1]
    simp
  obtain ⟨it', h1, h2, h3⟩ := hafter _ it _ x i hsplit e3 hsp (by rw [hinfo b hb it (by rw [e1]; simp), hi])
  rcases List.mem_append.1 h1 with h1 | h1
  · obtain ⟨b', hb', hit'⟩ := List.mem_flatMap.1 h1
    rw [hinfo b' (by rw [hl]; simp [hb']) it' hit'] at h3
    rw [hl] at hnd
    unfold blockAddrs at hnd
    rw [List.filterMap_append, List.nodup_append] at hnd
    refine hnd.2.2 i.1 (List.mem_filterMap.2 ⟨b', hb', by rw [h3]; rfl⟩) i.1 ?_ rfl
    exact List.mem_filterMap.2 ⟨b, by simp, by rw [hi]; rfl⟩
  · exact h2 (e2 it' h1)

/-! ### Begin prefixes -/

/-- Entities start with marked characters. -/
def markedChars (cc : CharClass) : Option Str → List (Option Str) → List (Char × Option Str × Bool) → Prop
  | _, _, [] => True
  | prev, begun, (c, v, b) :: l =>
    if cc.isSpace c then markedChars cc prev (if b then v :: begun else begun) l
    else (v ≠ none → (v ∈ begun ∨ prev ≠ v) → b = true) ∧ markedChars cc v [] l

theorem markedChars_continue (cc : CharClass) (s : Str) (v : Option Str) (l : List (Char × Option Str × Bool)) :
    markedChars cc v [] (s.map (fun c => (c, v, false)) ++ l) ↔ markedChars cc v [] l := by
  induction s with
  | nil => exact Iff.rfl
  | cons c s ih =>
    rw [List.map_cons, List.cons_append, markedChars]
    cases hc : cc.isSpace c with
    | true => simp [ih]
    | false => simp [ih]

theorem markedChars_spaces (cc : CharClass) (s : Str) (hs : s.all cc.isSpace = true) (v prev : Option Str)
    (begun : List (Option Str)) (l : List (Char × Option Str × Bool)) :
    markedChars cc prev begun (s.map (fun c => (c, v, false)) ++ l) ↔ markedChars cc prev begun l := by
  induction s with
  | nil => exact Iff.rfl
  | cons c s ih =>
    rw [List.all_cons, Bool.and_eq_true] at hs
    rw [List.map_cons, List.cons_append, markedChars, if_pos hs.1]
    exact ih hs.2

theorem flagFirst_cons (b : Bool) (c : Char) (s : Str) (v : Option Str) (l : List (Char × Option Str × Bool)) :
    flagFirst b ((c :: s).map (fun c => (c, v))) ++ l = (c, v, b) :: (s.map (fun c => (c, v, false)) ++ l) := by
  simp [flagFirst]

theorem deepBegin_stream (cc : CharClass) (mapping : Dict Str) (toks : List Tok) (hne : ∀ t ∈ toks, t.text ≠ [])
    (hfirst : ∀ t ∈ toks, blank cc t = false → ∀ x s, t.text = x :: s → cc.isSpace x = false)
    (prev : Option Str) (begun : List (Option Str)) (h : markedChars cc prev begun (toks.flatMap tokStream)) :
    NestedMarked cc mapping prev begun toks := by
  induction toks generalizing prev begun with
  | nil => trivial
  | cons t ts ih =>
    have ih' := fun p b => ih (fun u hu => hne u (by simp [hu])) (fun u hu => hfirst u (by simp [hu])) p b
    rw [List.flatMap_cons, tokStream] at h
    rw [NestedMarked]
    cases hx : t.text with
    | nil => exact absurd hx (hne t (by simp))
    | cons x s =>
      rw [hx, flagFirst_cons, markedChars] at h
      split
      · next hb =>
        have hb' := hb
        unfold blank at hb'
        rw [hx, List.all_cons, Bool.and_eq_true] at hb'
        rw [if_pos hb'.1, markedChars_spaces cc s hb'.2] at h
        exact ih' _ _ h
      · next hb =>
        have hx0 := hfirst t (by simp) (by rw [← Bool.not_eq_true]; exact hb) x s hx
        rw [if_neg (by rw [hx0]; simp), markedChars_continue] at h
        refine ⟨?_, ih' _ _ h.2⟩
        intro hst
        unfold startsAt at hst
        rw [decide_eq_true_eq] at hst
        rcases hst.2 with h1 | h1
        · exact .inr h1
        · exact .inr (h.1 hst.1 h1)

theorem markedChars_blocks (cc : CharClass) (bl : List (Bool × Option Str × Str))
    (h1 : ∀ x ∈ bl, x.2.1 ≠ none → x.1 = true ∧ ∀ y s, x.2.2 = y :: s → cc.isSpace y = false)
    (h2 : ∀ x ∈ bl, x.2.1 = none → x.1 = false) (prev : Option Str) :
    markedChars cc prev [] (bl.flatMap (fun x => flagFirst x.1 (x.2.2.map (fun c => (c, x.2.1))))) := by
  induction bl generalizing prev with
  | nil => trivial
  | cons x bl ih =>
    have ih' := fun p => ih (fun u hu => h1 u (by simp [hu])) (fun u hu => h2 u (by simp [hu])) p
    obtain ⟨b, v, s⟩ := x
    have a1 := h1 (b, v, s) (by simp)
    have a2 := h2 (b, v, s) (by simp)
    rw [List.flatMap_cons]
    simp only at a1 a2 ⊢
    cases s with
    | nil => exact ih' prev
    | cons y s =>
      rw [flagFirst_cons, markedChars]
      by_cases hv : v = none
      · rw [a2 hv, hv]
        split
        · next hsp =>
          simp only [Bool.false_eq_true, if_false]
          have : ∀ (s : Str) (prev : Option Str), markedChars cc prev []
              (s.map (fun c => (c, none, false)) ++ bl.flatMap (fun x => flagFirst x.1 (x.2.2.map (fun c => (c, x.2.1))))) := by
            intro s
            induction s with
            | nil => exact ih'
            | cons c s ihs =>
              intro prev
              rw [List.map_cons, List.cons_append, markedChars]
              split
              · exact ihs prev
              · exact ⟨fun h => absurd rfl h, ihs none⟩
          exact this s prev
        · exact ⟨fun h => absurd rfl h, (markedChars_continue cc s none _).2 (ih' none)⟩
      · obtain ⟨b1, b2⟩ := a1 hv
        rw [b2 y s rfl, if_neg (by simp), b1]
        exact ⟨fun _ _ => rfl, (markedChars_continue cc s v _).2 (ih' v)⟩

theorem isSpace_first_of_whole {cc : CharClass} (hspace : ∀ ch, cc.isSpace ch = true → cc.isWord ch = false) {s : Str}
    (h : Whole cc s) (hb : s.all cc.isSpace = false) (x : Char) (r : Str) (hx : s = x :: r) : cc.isSpace x = false := by
  apply Classical.byContradiction
  intro hsp
  have hsp : cc.isSpace x = true := by simpa using hsp
  subst hx
  cases r with
  | nil => simp [hsp] at hb
  | cons y r =>
    unfold Whole at h
    have hbd : tokenBoundary cc x y = true := by simp [tokenBoundary, hspace x hsp]
    rw [cutAt_cons, if_pos hbd] at h
    obtain ⟨v, vs, h1, _⟩ := cutAt_head (tokenBoundary cc) y r
    rw [h1] at h
    cases h

/-- The tokens of a saved and loaded document have the begin prefix where an entity starts. -/
theorem loaded_deepBegin (cfg : DocCfg) (root c root' : Elem) (d d' : Doc)
    (hspace : ∀ ch, cfg.cc.isSpace ch = true → cfg.cc.isWord ch = false)
    (hp : cfg.preserveTags = true)
    (hc : findAll cfg.containerPath root = [c])
    (hs : docRoot cfg root d = .ok root')
    (hd : ∀ t ∈ d.lineToks.flatten, blank cfg.cc t = false → Distinct cfg.cc cfg.mapping d.lineToks.flatten t)
    (hwhole : ∀ l ∈ tokenTexts d, ∀ s ∈ l, Whole cfg.cc s)
    (hwhole' : ∀ l ∈ tokenTexts d', ∀ s ∈ l, Whole cfg.cc s)
    (hd' : loadDoc cfg root' = .ok d') :
    NestedMarked cfg.cc cfg.mapping none [] d'.lineToks.flatten := by
  have hfirst : ∀ (d : Doc), (∀ l ∈ tokenTexts d, ∀ s ∈ l, Whole cfg.cc s) →
      ∀ t ∈ d.lineToks.flatten, blank cfg.cc t = false → ∀ x s, t.text = x :: s → cfg.cc.isSpace x = false := by
    intro d hw t ht hb x s hx
    obtain ⟨l, hl, ht⟩ := List.mem_flatten.1 ht
    exact isSpace_first_of_whole hspace
      (hw (l.map (·.text)) (List.mem_map.2 ⟨l, hl, rfl⟩) t.text (List.mem_map.2 ⟨t, ht, rfl⟩)) hb x s hx
  unfold docRoot updatedTei at hs
  rw [hc] at hs
  simp only at hs
  split at hs
  · cases hs
  · next f hf =>
    obtain ⟨r, h1, h2, _⟩ := findAll_replaceFirst f.close cfg.containerPath root c [] hc (by
      exact (linesToTei_head _ _ _ _ hf).1)
    rw [h1] at hs
    simp only [Except.ok.injEq] at hs
    subst hs
    have hn := linesToTei_below parsed_named (by decide) _ _ _ _ _ hf
    obtain ⟨lines', g1, _, g3, g4⟩ := Props.C11_preserved cfg r d' hd'
    rw [h2] at g1
    obtain ⟨ps, p1, p2, _, p4, p5⟩ := linesToTei_pieces ⟨cfg.cc, cfg.mapping, cfg.okNode⟩ c.tag [] f d.lineToks
      (fun l hl t ht hb g hg tg a hpe =>
        ((hd t (List.mem_flatten.2 ⟨l, hl, ht⟩) hb).stable g hg tg a hpe).2) hf
    have hall := lineToks_flatten d'
    have hne : ∀ t ∈ lines'.flatten, t.text ≠ [] := by
      intro t ht
      obtain ⟨l, hl, ht⟩ := List.mem_flatten.1 ht
      exact extractContainersFrom_inv (neInv cfg.cc) _ _ _ _ g1 (by simp [Buf.empty]) l hl t (by simpa using ht)
    have e1 : d'.lineToks.flatten.flatMap tokStream =
        (viewStream (lines'.flatten.map (fun t => (t.text, t.attrib.get? c!"tag")))).map
          (fun x => (x.1, pathValue cfg.mapping x.2.1, x.2.2 && (pathValue cfg.mapping x.2.1).isSome)) := by
      unfold viewStream
      rw [hall, g3, List.flatMap_map, List.flatMap_map, List.map_flatMap]
      apply flatMap_range
      intro i t ht
      obtain ⟨k1, k2, _, k4, _⟩ := g4 i t ht
      rw [hp, if_pos rfl] at k4
      have hform := loaded_tag_form cfg.cc _ f.close lines' hn g1 t (List.mem_of_getElem? ht)
      unfold tokStream
      rw [k1, mainValue_renamed cfg.mapping (d'.tok i) t k2 k4 hform, hasBegin_renamed cfg.mapping (d'.tok i) t k2 k4 hform]
      cases t.text with
      | nil => rfl
      | cons c s => simp [flagFirst, pathValue, Function.comp_def]
    apply deepBegin_stream
    · intro t ht
      rw [hall, g3] at ht
      obtain ⟨i, hi, rfl⟩ := List.mem_map.1 ht
      obtain ⟨u, hu⟩ : ∃ u, lines'.flatten[i]? = some u :=
        ⟨_, List.getElem?_eq_getElem (List.mem_range.1 hi)⟩
      rw [(g4 i u hu).1]
      exact hne u (List.mem_of_getElem? hu)
    · exact hfirst d' hwhole'
    · rw [e1, extract_stream cfg.cc (cfg.mapping.map (·.2)) f lines' hn g1]
      let L : TagBlock → Bool × Option Str × Str := fun b =>
        (b.1.isSome && (pathValue cfg.mapping (b.1.map (·.2))).isSome, pathValue cfg.mapping (b.1.map (·.2)), blockText b)
      have e2 : ((rootBlocks cfg.cc (cfg.mapping.map (·.2)) f).flatMap blockStream).map
          (fun x => (x.1, pathValue cfg.mapping x.2.1, x.2.2 && (pathValue cfg.mapping x.2.1).isSome)) =
          ((rootBlocks cfg.cc (cfg.mapping.map (·.2)) f).map L).flatMap
            (fun x => flagFirst x.1 (x.2.2.map (fun c => (c, x.2.1)))) := by
        rw [List.map_flatMap, List.flatMap_map]
        congr 1
        funext b
        simp only [blockStream, L]
        cases blockText b with
        | nil => rfl
        | cons c s => simp [flagFirst, Function.comp_def]
      rw [e2]
      apply markedChars_blocks
      · intro x hx hv
        obtain ⟨b, hb, rfl⟩ := List.mem_map.1 hx
        simp only [L] at hv ⊢
        cases hb1 : b.1 with
        | none => rw [hb1] at hv; exact absurd rfl hv
        | some i =>
          rw [hb1] at hv
          refine ⟨?_, ?_⟩
          · rw [Option.isSome_some, Bool.true_and, Option.isSome_iff_ne_none]; exact hv
          · intro y s hy
            refine block_first cfg.cc _ f ?_ b hb (by rw [hb1]; simp) y s hy
            intro pre it post ch i hsplit hch hsp hi
            exact space_after_text cfg f d.lineToks ps p1 p2 p4 p5 hd (hfirst d hwhole) pre it post hsplit ch hch hsp i hi
      · intro x hx hv
        obtain ⟨b, hb, rfl⟩ := List.mem_map.1 hx
        simp only [L] at hv ⊢
        rw [hv]; simp

end Verif
