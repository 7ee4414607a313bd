/-
Saving a document and loading it again: entities start at the same characters.
-/
import Verif.Lemmas.ReloadBlocks

namespace Verif
open Spec

theorem beginsEntity_iff (t : Tok) : beginsEntity t = true ↔ isBegin t := by
  unfold beginsEntity isBegin
  cases fullTag t with
  | none => simp
  | some v =>
    simp only [Option.some.injEq]
    constructor
    · intro h
      obtain ⟨r, hr⟩ := startsWith_iff.1 h
      exact ⟨r, hr.symm⟩
    · rintro ⟨r, rfl⟩
      exact startsWith_iff.2 ⟨r, rfl⟩

/-- The address of the main element of a text token. -/
def mainAddr (mapping : Dict Str) (p : Piece) (t : Tok) : Option (List Nat) :=
  if mainPath mapping t = [] then none else some (p.addr.take (mainPath mapping t).length)

/-- The characters of a piece with the tag and the address of the main element. -/
def pieceEntries (cc : CharClass) (mapping : Dict Str) (p : Piece) : List (Char × Option Str × Option (List Nat)) :=
  match p.tok with
  | none => []
  | some t =>
    if blank cc t then []
    else (t.text.filter (fun c => !cc.isSpace c)).map (fun c => (c, mainValue t, mainAddr mapping p t))

theorem strip_eq_of_mainValue {a b : Tok} (h : mainValue a = mainValue b) (hn : mainValue b ≠ none) :
    stripTagPrefix (fullTag a) = stripTagPrefix (fullTag b) := by
  rw [mainValue_eq, mainValue_eq] at h
  rw [mainValue_eq] at hn
  cases ha : stripTagPrefix (fullTag a) with
  | none => rw [ha] at h; exact absurd h.symm hn
  | some v =>
    cases hb : stripTagPrefix (fullTag b) with
    | none => rw [hb] at hn; exact absurd rfl hn
    | some w =>
      rw [ha, hb] at h
      rw [hb] at hn
      simp only [Option.bind_some, normTag] at h hn
      by_cases hw : w = []
      · rw [if_pos hw] at hn; exact absurd rfl hn
      · rw [if_neg hw] at h
        by_cases hv : v = []
        · rw [if_pos hv] at h; cases h
        · rw [if_neg hv] at h; exact h

theorem mainValue_eq_of_strip {a b : Tok} (h : stripTagPrefix (fullTag a) = stripTagPrefix (fullTag b)) :
    mainValue a = mainValue b := by
  rw [mainValue_eq, mainValue_eq, h]

/-- The state of `Spec.entityChars` and `elementMachine` after some pieces. -/
structure EntityState (cc : CharClass) (mapping : Dict Str) (pre : List Piece) (prev : Option Str)
    (begun : List (Option Str)) (po : Option (List Nat)) : Prop where
  last : ∃ pre0 mid, pre = pre0 ++ mid ∧ noText cc mid ∧
    ((pre0 = [] ∧ prev = none ∧ po = none) ∨
      ∃ pre1 q u, pre0 = pre1 ++ [q] ∧ q.tok = some u ∧ blank cc u = false ∧ prev = mainValue u ∧ po = mainAddr mapping q u) ∧
    ∀ v, v ∈ begun ↔ ∃ q ∈ mid, ∃ b, q.tok = some b ∧ beginsEntity b = true ∧ mainValue b = v

theorem isText_iff {cc : CharClass} {p : Piece} {t : Tok} (h : p.tok = some t) : p.isText cc = !blank cc t := by
  unfold Piece.isText; rw [h]

theorem entityState_begun {cc : CharClass} {mapping : Dict Str} {pre : List Piece} {prev : Option Str}
    {begun : List (Option Str)} {po : Option (List Nat)} (h : EntityState cc mapping pre prev begun po) (t : Tok)
    (hv : mainValue t ≠ none) : mainValue t ∈ begun ↔ beginOnSpace cc pre t := by
  obtain ⟨pre0, mid, rfl, hmid, hlast, hbegun⟩ := h.last
  rw [hbegun]
  constructor
  · rintro ⟨q, hq, b, hb, h1, h2⟩
    obtain ⟨m1, m2, rfl⟩ := List.append_of_mem hq
    refine ⟨pre0 ++ m1, q, m2, b, by simp, fun x hx => hmid x (by simp [hx]), hb, ?_, (beginsEntity_iff b).1 h1,
      strip_eq_of_mainValue h2 hv⟩
    have := hmid q hq
    rw [isText_iff hb] at this
    simpa using this
  · rintro ⟨pre', q, mid', b, hs, hno, hb, hbl, h1, h2⟩
    refine ⟨q, ?_, b, hb, (beginsEntity_iff b).2 h1, mainValue_eq_of_strip h2⟩
    rcases hlast with ⟨rfl, _⟩ | ⟨pre1, q0, u, rfl, hq0, hu, _⟩
    · rw [List.nil_append] at hs
      rw [hs]; simp
    · -- the last text piece cannot be in `mid'`
      rw [List.append_assoc, List.singleton_append] at hs
      rcases List.append_eq_append_iff.1 hs with ⟨r, hr1, hr2⟩ | ⟨r, hr1, hr2⟩
      · cases r with
        | nil =>
          simp only [List.nil_append, List.cons.injEq] at hr2
          rw [← hr2.1, hq0] at hb
          cases hb
          rw [hbl] at hu; cases hu
        | cons x r =>
          simp only [List.cons_append, List.cons.injEq] at hr2
          rw [hr2.2]; simp
      · cases r with
        | nil =>
          simp only [List.nil_append, List.cons.injEq] at hr2
          rw [hr2.1, hq0] at hb
          cases hb
          rw [hbl] at hu; cases hu
        | cons x r =>
          simp only [List.cons_append, List.cons.injEq] at hr2
          have := hno q0 (by rw [hr2.2]; simp)
          rw [isText_iff hq0, hu] at this
          cases this

theorem entity_pieces (cc : CharClass) (mapping : Dict Str) (ps : List Piece)
    (hgood : GoodPieces cc mapping ps)
    (hval : ∀ p ∈ ps, ∀ q ∈ ps, ∀ t u, p.tok = some t → q.tok = some u → blank cc t = false → blank cc u = false →
      mainAddr mapping p t ≠ none → mainAddr mapping p t = mainAddr mapping q u → mainValue t = mainValue u)
    (hsub : ∀ p ∈ ps, ∀ t, p.tok = some t → blank cc t = false → isSubBegin t →
      hasSub mapping t ∧ (mainPath mapping t).length < (subPath mapping t).length)
    (pre post : List Piece) (hps : ps = pre ++ post) (prev : Option Str) (begun : List (Option Str))
    (po : Option (List Nat)) (hst : EntityState cc mapping pre prev begun po) :
    entityChars cc prev begun (post.filterMap (·.tok)) = elementMachine po (post.flatMap (pieceEntries cc mapping)) := by
  induction post generalizing pre prev begun po with
  | nil => rfl
  | cons p post ih =>
    have hps' : ps = (pre ++ [p]) ++ post := by rw [hps]; simp
    rw [List.flatMap_cons]
    obtain ⟨pre0, mid, hpre, hmid, hlast, hbegun⟩ := hst.last
    cases ht : p.tok with
    | none =>
      rw [List.filterMap_cons_none ht]
      have e : pieceEntries cc mapping p = [] := by unfold pieceEntries; rw [ht]
      rw [e, List.nil_append]
      apply ih (pre ++ [p]) hps'
      refine ⟨pre0, mid ++ [p], by rw [hpre]; simp, ?_, hlast, ?_⟩
      · intro x hx
        rcases List.mem_append.1 hx with hx | hx
        · exact hmid x hx
        · rw [List.mem_singleton.1 hx]; unfold Piece.isText; rw [ht]
      · intro v
        rw [hbegun]
        constructor
        · rintro ⟨q, hq, h⟩; exact ⟨q, by simp [hq], h⟩
        · rintro ⟨q, hq, b, hb, h⟩
          rcases List.mem_append.1 hq with hq | hq
          · exact ⟨q, hq, b, hb, h⟩
          · rw [List.mem_singleton.1 hq, ht] at hb; cases hb
    | some t =>
      rw [List.filterMap_cons_some ht, entityChars]
      cases hb : blank cc t with
      | true =>
        rw [if_pos rfl]
        have e : pieceEntries cc mapping p = [] := by unfold pieceEntries; rw [ht]; simp [hb]
        rw [e, List.nil_append]
        apply ih (pre ++ [p]) hps'
        refine ⟨pre0, mid ++ [p], by rw [hpre]; simp, ?_, hlast, ?_⟩
        · intro x hx
          rcases List.mem_append.1 hx with hx | hx
          · exact hmid x hx
          · rw [List.mem_singleton.1 hx, isText_iff ht, hb]; rfl
        · intro v
          have key : (∃ q ∈ mid ++ [p], ∃ b, q.tok = some b ∧ beginsEntity b = true ∧ mainValue b = v) ↔
              v ∈ begun ∨ (beginsEntity t = true ∧ mainValue t = v) := by
            rw [hbegun]
            constructor
            · rintro ⟨q, hq, b, hb, h⟩
              rcases List.mem_append.1 hq with hq | hq
              · exact .inl ⟨q, hq, b, hb, h⟩
              · rw [List.mem_singleton.1 hq, ht] at hb
                cases hb
                exact .inr h
            · rintro (⟨q, hq, h⟩ | h)
              · exact ⟨q, by simp [hq], h⟩
              · exact ⟨p, by simp, t, ht, h⟩
          rw [key]
          cases hbt : beginsEntity t with
          | true => simp [eq_comm, or_comm]
          | false => simp
      | false =>
        rw [if_neg (by simp)]
        have e : pieceEntries cc mapping p =
            (t.text.filter (fun c => !cc.isSpace c)).map (fun c => (c, mainValue t, mainAddr mapping p t)) := by
          unfold pieceEntries; rw [ht]; simp [hb]
        have hne : t.text.filter (fun c => !cc.isSpace c) ≠ [] := by
          obtain ⟨c, h1, h2⟩ := exists_char_of_text hb
          intro h
          rw [List.filter_eq_nil_iff] at h
          have := h c h1
          simp [h2] at this
        rw [e, elementMachine_run, if_neg hne]
        have hnext : EntityState cc mapping (pre ++ [p]) (mainValue t) [] (mainAddr mapping p t) :=
          ⟨pre ++ [p], [], by simp, by simp [noText], .inr ⟨pre, p, t, rfl, ht, hb, rfl, rfl⟩, by simp⟩
        rw [ih (pre ++ [p]) hps' _ _ _ hnext]
        congr 2
        rw [decide_eq_decide]
        have hpm : p ∈ ps := by rw [hps]; simp
        have G := hgood pre p post t hps ht hb
        constructor
        · rintro ⟨hv, h⟩
          refine ⟨hv, ?_⟩
          have hm : mainPath mapping t ≠ [] := fun hm => hv (mainValue_of_noPath mapping t hm)
          have hA : mainAddr mapping p t = some (p.addr.take (mainPath mapping t).length) := by
            unfold mainAddr; rw [if_neg hm]
          rw [hA]
          rcases hlast with ⟨_, _, hpo⟩ | ⟨pre1, q, u, rfl, hq, hu, hprev, hpo⟩
          · rw [hpo]; simp
          · intro hpoeq
            rw [hpo] at hpoeq
            have hqm : q ∈ pre := by rw [hpre]; simp
            have hval' := hval p hpm q (by rw [hps]; simp [hqm]) t u ht hq hb hu (by rw [hA]; simp) (by rw [hA, hpoeq])
            have hfr : (isBegin t ∨ beginOnSpace cc pre t) := by
              rcases h with h | h | h
              · exact .inl ((beginsEntity_iff t).1 h)
              · exact .inr ((entityState_begun hst t hv).1 h)
              · rw [hprev] at h; exact absurd hval'.symm h
            have hF := G.begins hfr hm
            obtain ⟨c, hc, _⟩ := exists_char_of_text hu
            have hit : (⟨q.addr, q.chain, some c⟩ : Item) ∈ pre.flatMap Piece.items := by
              refine List.mem_flatMap.2 ⟨q, hqm, ?_⟩
              unfold Piece.items
              rw [hq]
              exact List.mem_map.2 ⟨c, hc, rfl⟩
            apply hF _ hit
            unfold mainAddr at hpoeq
            split at hpoeq
            · cases hpoeq
            · simp only [Option.some.injEq] at hpoeq
              rw [hpoeq]
              exact List.take_prefix _ _
        · rintro ⟨hv, h⟩
          refine ⟨hv, ?_⟩
          apply Classical.byContradiction
          intro hn
          have hn1 : ¬ isBegin t := fun hh => hn (.inl ((beginsEntity_iff t).2 hh))
          have hn2 : ¬ beginOnSpace cc pre t := fun hh => hn (.inr (.inl ((entityState_begun hst t hv).2 hh)))
          have hn3 : prev = mainValue t := Classical.byContradiction fun hh => hn (.inr (.inr hh))
          have hm : mainPath mapping t ≠ [] := fun hm => hv (mainValue_of_noPath mapping t hm)
          rcases hlast with ⟨_, hprev, _⟩ | ⟨pre1, q, u, rfl, hq, hu, hprev, hpo⟩
          · rw [hprev] at hn3; exact hv hn3.symm
          · have hmp : mainPath mapping t = mainPath mapping u := by
              rw [mainPath_value, mainPath_value, ← hn3, hprev]
            have := G.continues q u mid ⟨⟨pre1, by rw [hpre]; simp⟩, hq, hu, hmid⟩ hn1 hn2 hmp (hsub p hpm t ht hb)
            apply h
            rw [hpo]
            unfold mainAddr
            rw [← hmp, if_neg hm, if_neg hm, this]

/-! ### Both sides -/

/-- The characters of items that are not white space, with a label. -/
def itemEntries (cc : CharClass) (g : Item → Option Str × Option (List Nat)) (l : List Item) :
    List (Char × Option Str × Option (List Nat)) :=
  l.filterMap (fun it => it.ch.bind (fun c => if cc.isSpace c then none else some (c, g it)))

theorem itemEntries_const (cc : CharClass) (g : Item → Option Str × Option (List Nat)) (v : Option Str × Option (List Nat))
    (l : List Item) (h : ∀ it ∈ l, g it = v) :
    itemEntries cc g l = ((l.filterMap (·.ch)).filter (fun c => !cc.isSpace c)).map (fun c => (c, v)) := by
  induction l with
  | nil => rfl
  | cons it l ih =>
    have ih' := ih (fun x hx => h x (by simp [hx]))
    have h0 := h it (by simp)
    unfold itemEntries at ih' ⊢
    cases hc : it.ch with
    | none => simp [hc, ih']
    | some c => cases hs : cc.isSpace c <;> simp [hc, hs, ih', h0]

theorem itemEntries_append (cc : CharClass) (g : Item → Option Str × Option (List Nat)) (a b : List Item) :
    itemEntries cc g (a ++ b) = itemEntries cc g a ++ itemEntries cc g b := List.filterMap_append

theorem itemEntries_flatMap {α : Type} (cc : CharClass) (g : Item → Option Str × Option (List Nat)) (F : α → List Item)
    (l : List α) : itemEntries cc g (l.flatMap F) = l.flatMap (fun x => itemEntries cc g (F x)) := by
  induction l with
  | nil => rfl
  | cons x l ih => rw [List.flatMap_cons, List.flatMap_cons, itemEntries_append, ih]

theorem itemEntries_pieces (cc : CharClass) (mapping : Dict Str) (g : Item → Option Str × Option (List Nat)) (ps : List Piece)
    (h : ∀ p ∈ ps, ∀ t, p.tok = some t → blank cc t = false → ∀ it : Item, it.addr = p.addr → it.chain = p.chain →
      g it = (mainValue t, mainAddr mapping p t)) :
    itemEntries cc g (ps.flatMap Piece.items) = ps.flatMap (pieceEntries cc mapping) := by
  rw [itemEntries_flatMap]
  induction ps with
  | nil => rfl
  | cons p ps ih =>
    rw [List.flatMap_cons, List.flatMap_cons, ih (fun q hq => h q (by simp [hq]))]
    congr 1
    unfold Piece.items pieceEntries
    cases ht : p.tok with
    | none => rfl
    | some t =>
      simp only
      cases hb : blank cc t with
      | true =>
        rw [if_pos rfl]
        unfold itemEntries
        rw [List.filterMap_eq_nil_iff]
        intro it hit
        obtain ⟨c, hc, rfl⟩ := List.mem_map.1 hit
        unfold blank at hb
        simp [List.all_eq_true.1 hb c hc]
      | false =>
        rw [if_neg (by simp), itemEntries_const cc g (mainValue t, mainAddr mapping p t)]
        · congr 2
          exact blockText_textAt none p.addr p.chain t.text
        · intro it hit
          obtain ⟨c, _, rfl⟩ := List.mem_map.1 hit
          exact h p (by simp) t ht hb _ rfl rfl

/-- The main tag of a loaded path. -/
def pathValue (mapping : Dict Str) (x : Option Str) : Option Str := x.bind (fun p => normTag (tagOfPath mapping p))

/-- The entities loaded from an element: one for each outermost tagged element. -/
theorem loaded_entities (cc : CharClass) (rp : List Str) (mapping : Dict Str) (f : Frame) (lines : List (List Tok))
    (hn : allBelow (fun tag _ => tag ≠ []) f.close)
    (h : extractContainers cc rp [f.close] = .ok lines) (prev : Option Str) (begun : List (Option Str)) :
    charMachine cc prev begun ((viewStream (lines.flatten.map (fun t => (t.text, t.attrib.get? c!"tag")))).map
      (fun x => (x.1, pathValue mapping x.2.1, x.2.2 && (pathValue mapping x.2.1).isSome))) =
    elementMachine none (itemEntries cc (fun it =>
      (pathValue mapping ((outerInfo cc rp (Spec.items f.close) 1 it).map (·.2)),
        (outerInfo cc rp (Spec.items f.close) 1 it).map (·.1))) (Spec.items f.close)) := by
  rw [extract_stream cc rp f lines hn h]
  have hb : ∀ b ∈ rootBlocks cc rp f, ∀ it ∈ b.2, outerInfo cc rp (Spec.items f.close) 1 it = b.1 :=
    fun b hb it hit => blocks_info cc rp (Spec.items f.close) f.close [] [] rfl (fun _ _ => rfl) b hb it hit
  have hi : Spec.items f.close = (rootBlocks cc rp f).flatMap (·.2) := (blocks_items cc rp [] [] f.close).symm
  have hnd : (blockAddrs (rootBlocks cc rp f)).Nodup := blocks_nodup cc rp [] [] f.close
  -- the left hand side by blocks
  let L : TagBlock → Bool × Option Str × Str := fun b =>
    (b.1.isSome && (pathValue mapping (b.1.map (·.2))).isSome, pathValue mapping (b.1.map (·.2)), blockText b)
  have e1 : ((rootBlocks cc rp f).flatMap blockStream).map
      (fun x => (x.1, pathValue mapping x.2.1, x.2.2 && (pathValue mapping x.2.1).isSome)) =
      ((rootBlocks cc rp f).map L).flatMap (fun x => flagFirst x.1 (x.2.2.map (fun c => (c, x.2.1)))) := by
    rw [List.map_flatMap, List.flatMap_map]
    congr 1
    funext b
    simp only [blockStream, L]
    cases blockText b with
    | nil => rfl
    | cons c s => simp [flagFirst, Function.comp_def]
  rw [e1, charMachine_blocks]
  · -- the right hand side by blocks
    let R : TagBlock → Option (List Nat) × Option Str × Str := fun b =>
      (b.1.map (·.1), pathValue mapping (b.1.map (·.2)), (blockText b).filter (fun c => !cc.isSpace c))
    generalize hg : (fun it : Item => (pathValue mapping ((outerInfo cc rp (Spec.items f.close) 1 it).map (·.2)),
        (outerInfo cc rp (Spec.items f.close) 1 it).map (·.1))) = g
    have e2 : itemEntries cc g (Spec.items f.close) =
        ((rootBlocks cc rp f).map R).flatMap (fun x => x.2.2.map (fun c => (c, x.2.1, x.1))) := by
      rw [hi, itemEntries_flatMap, List.flatMap_map]
      have : ∀ b ∈ rootBlocks cc rp f, itemEntries cc g b.2 = (R b).2.2.map (fun c => (c, (R b).2.1, (R b).1)) := by
        intro b hbm
        rw [itemEntries_const cc g ((R b).2.1, (R b).1)]
        · rfl
        · intro it hit
          rw [← hg]
          simp only [R, hb b hbm it hit]
      generalize rootBlocks cc rp f = bs at this
      clear hi hnd hb e1
      induction bs with
      | nil => rfl
      | cons b bs ih =>
        rw [List.flatMap_cons, List.flatMap_cons, this b (by simp), ih (fun x hx => this x (by simp [hx]))]
    rw [e2, elementMachine_blocks]
    · rw [List.flatMap_map, List.flatMap_map]
    · intro x hx hv
      obtain ⟨b, _, rfl⟩ := List.mem_map.1 hx
      simp only [R] at hv ⊢
      intro hh
      cases h1 : b.1 with
      | none => rw [h1] at hv; exact hv rfl
      | some i => rw [h1] at hh; cases hh
    · rw [List.filterMap_map]
      exact hnd
    · intro a ha; cases ha
  · intro x hx hv
    obtain ⟨b, _, rfl⟩ := List.mem_map.1 hx
    simp only [L] at hv ⊢
    cases h1 : b.1 with
    | none => rw [h1] at hv; exact absurd rfl hv
    | some i =>
      rw [h1] at hv
      simp only [Option.isSome_some, Bool.true_and]
      exact Option.isSome_iff_ne_none.2 hv

/-! ### Round trip -/

theorem outerInfo_piece (cc : CharClass) (mapping : Dict Str) (f : Frame) (ps : List Piece) (toks : List Tok)
    (hitems : Spec.items f.close = ps.flatMap Piece.items)
    (htoks : ps.filterMap (·.tok) = toks)
    (hgood : GoodPieces cc mapping ps)
    (hd : ∀ t ∈ toks, blank cc t = false → Distinct cc mapping toks t)
    (p : Piece) (hp : p ∈ ps) (t : Tok) (ht : p.tok = some t) (hb : blank cc t = false)
    (it : Item) (ha : it.addr = p.addr) (hch : it.chain = p.chain) :
    (outerInfo cc (mapping.map (·.2)) (Spec.items f.close) 1 it).map (·.1) = mainAddr mapping p t ∧
    (outerInfo cc (mapping.map (·.2)) (Spec.items f.close) 1 it).map (·.2) = loadedTag mapping t := by
  obtain ⟨h1, h2⟩ := outerDepth_piece cc mapping f ps toks hitems htoks hgood hd p hp t ht hb it ha hch
  unfold outerInfo loadedTag mainAddr
  rw [h1, mainDepth]
  split
  · exact ⟨rfl, rfl⟩
  · simp only [Option.map_some, ha, h2, and_self]

theorem eq_of_nodup_filterMap {α β : Type} (F : α → Option β) (l : List α) (h : (l.filterMap F).Nodup) (a b : α)
    (ha : a ∈ l) (hb : b ∈ l) (x : β) (h1 : F a = some x) (h2 : F b = some x) : a = b := by
  induction l with
  | nil => cases ha
  | cons y l ih =>
    have hmem : ∀ z ∈ l, F z = some x → x ∈ l.filterMap F := fun z hz hx => List.mem_filterMap.2 ⟨z, hz, hx⟩
    rcases List.mem_cons.1 ha with rfl | ha'
    · rcases List.mem_cons.1 hb with rfl | hb
      · rfl
      · rw [List.filterMap_cons_some h1, List.nodup_cons] at h
        exact absurd (hmem b hb h2) h.1
    · rcases List.mem_cons.1 hb with rfl | hb
      · rw [List.filterMap_cons_some h2, List.nodup_cons] at h
        exact absurd (hmem a ha' h1) h.1
      · apply ih ?_ ha' hb
        cases hy : F y with
        | none => rw [List.filterMap_cons_none hy] at h; exact h
        | some z => rw [List.filterMap_cons_some hy, List.nodup_cons] at h; exact h.2

/-- An address belongs to one element. -/
theorem outerInfo_unique (cc : CharClass) (rp : List Str) (f : Frame) (it it' : Item) (h : it ∈ Spec.items f.close)
    (h' : it' ∈ Spec.items f.close) (a : List Nat)
    (ha : (outerInfo cc rp (Spec.items f.close) 1 it).map (·.1) = some a)
    (ha' : (outerInfo cc rp (Spec.items f.close) 1 it').map (·.1) = some a) :
    outerInfo cc rp (Spec.items f.close) 1 it = outerInfo cc rp (Spec.items f.close) 1 it' := by
  have hb : ∀ b ∈ rootBlocks cc rp f, ∀ it ∈ b.2, outerInfo cc rp (Spec.items f.close) 1 it = b.1 :=
    fun b hb it hit => blocks_info cc rp (Spec.items f.close) f.close [] [] rfl (fun _ _ => rfl) b hb it hit
  have hi : Spec.items f.close = (rootBlocks cc rp f).flatMap (·.2) := (blocks_items cc rp [] [] f.close).symm
  have hm : it ∈ (rootBlocks cc rp f).flatMap (·.2) := hi ▸ h
  have hm' : it' ∈ (rootBlocks cc rp f).flatMap (·.2) := hi ▸ h'
  obtain ⟨b, hbm, hit⟩ := List.mem_flatMap.1 hm
  obtain ⟨b', hbm', hit'⟩ := List.mem_flatMap.1 hm'
  rw [hb b hbm it hit] at ha ⊢
  rw [hb b' hbm' it' hit'] at ha' ⊢
  have hnd : ((rootBlocks cc rp f).filterMap (fun b : TagBlock => b.1.map (fun x => x.1))).Nodup :=
    blocks_nodup cc rp [] [] f.close
  rw [eq_of_nodup_filterMap _ _ hnd b b' hbm hbm' a ha ha']

theorem hasBegin_renamed (m : Dict Str) (t u : Tok)
    (h1 : t.attrib.get? c!"tag" = none)
    (h2 : t.attrib.get? c!"preserved_tag" = (u.attrib.get? c!"tag").map (renameTag (tagOfPath m)))
    (h3 : u.attrib.get? c!"tag" = none ∨ ∃ p, u.attrib.get? c!"tag" = some (c!"b-" ++ p) ∨
      u.attrib.get? c!"tag" = some (c!"i-" ++ p)) :
    beginsEntity t = (hasBegin (u.attrib.get? c!"tag") &&
      (pathValue m (stripTagPrefix (u.attrib.get? c!"tag"))).isSome) := by
  have hf : fullTag t = (u.attrib.get? c!"tag").map (renameTag (tagOfPath m)) := by
    unfold fullTag
    rw [h1, h2]; rfl
  unfold beginsEntity
  rw [hf]
  rcases h3 with h3 | ⟨p, h3 | h3⟩
  · rw [h3]; rfl
  · rw [h3, show stripTagPrefix (some (c!"b-" ++ p)) = some p from stripTagPrefix_b p]
    have e1 : hasBegin (some (c!"b-" ++ p)) = true := by simp [hasBegin, startsWith]
    rw [e1, Bool.true_and]
    show startsWith c!"b-" (withPrefix c!"b-" (tagOfPath m p)) = (normTag (tagOfPath m p)).isSome
    unfold withPrefix normTag
    by_cases hp : tagOfPath m p = []
    · rw [if_pos hp, if_pos hp]; rfl
    · rw [if_neg hp, if_neg hp]; simp [startsWith]
  · rw [h3]
    show startsWith c!"b-" (withPrefix c!"i-" (tagOfPath m p)) = (false && _)
    rw [Bool.false_and]
    unfold withPrefix
    by_cases hp : tagOfPath m p = []
    · rw [if_pos hp]; rfl
    · rw [if_neg hp]; rfl

end Verif
