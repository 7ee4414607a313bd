import Verif.Model.TeiDoc
import Verif.Lemmas.TeiPieces
import Verif.Spec.TeiDoc

namespace Verif

/-! ### Attribute names -/

theorem scopedTag_ne_preserved (scope : Option Str) (level : Option Nat) (level' : Option Nat) :
    scopedAttribName tagAttribName scope level ≠ scopedAttribName preservedTagAttribName none level' := by
  intro h
  rw [scopedAttribName_eq, scopedAttribName_eq] at h
  have e : preservedTagAttribName = c!"preserved_" ++ tagAttribName := rfl
  rw [e, ← List.append_assoc] at h
  have h1 := List.append_cancel_right h
  have h2 := congrArg List.reverse h1
  simp only [List.reverse_append] at h2
  have e2 : (c!"preserved_" : Str).reverse = '_' :: 'd' :: c!"evreserp" := rfl
  rw [e2] at h2
  unfold namePrefix at h2
  rcases level with _ | _ | n
  · rcases scope with _ | _ | ⟨c, s⟩ <;> simp at h2
  · rcases scope with _ | _ | ⟨c, s⟩ <;> simp at h2
  · simp only [List.reverse_append, List.append_assoc] at h2
    cases hd : (Nat.toDigits 10 (n + 1)).reverse with
    | nil =>
      simp at hd
    | cons x ds =>
      rw [hd] at h2
      simp only [List.reverse_cons, List.reverse_nil, List.nil_append, List.cons_append, List.cons.injEq] at h2
      have hx : x ∈ Nat.toDigits 10 (n + 1) := by
        rw [← List.mem_reverse, hd]; simp
      have := digits_all (n + 1) x hx
      rw [h2.2.1] at this
      exact absurd this (by decide)

/-! ### Everything but the attributes -/

/-- The two documents differ in attributes only. -/
structure SameBut (d d' : Doc) : Prop where
  lines : d'.lines = d.lines
  lineOf : d'.lineOf = d.lineOf
  text : ∀ j, (d'.tok j).text = (d.tok j).text
  isSpace : ∀ j, (d'.tok j).isSpace = (d.tok j).isSpace
  whitespace : ∀ j, (d'.tok j).whitespace = (d.tok j).whitespace

theorem SameBut.refl (d : Doc) : SameBut d d := ⟨rfl, rfl, fun _ => rfl, fun _ => rfl, fun _ => rfl⟩

theorem SameBut.trans {a b c : Doc} (h : SameBut a b) (h' : SameBut b c) : SameBut a c :=
  ⟨h'.lines.trans h.lines, h'.lineOf.trans h.lineOf, fun j => (h'.text j).trans (h.text j),
   fun j => (h'.isSpace j).trans (h.isSpace j), fun j => (h'.whitespace j).trans (h.whitespace j)⟩

theorem sameBut_modAttrib (d : Doc) (i : Nat) (f : Dict Str → Dict Str) : SameBut d (d.modAttrib i f) := by
  refine ⟨rfl, rfl, ?_, ?_, ?_⟩ <;> (intro j; simp only [Doc.modAttrib]; split <;> rfl)

theorem sameBut_setAttr (d : Doc) (i : Nat) (n : Str) (v : Option Str) : SameBut d (d.setAttr i n v) :=
  sameBut_modAttrib d i _

theorem sameBut_foldl {β : Type} (g : Doc → β → Doc) (hg : ∀ d x, SameBut d (g d x)) (l : List β) (d : Doc) :
    SameBut d (l.foldl g d) := by
  induction l generalizing d with
  | nil => exact .refl d
  | cons x l ih => exact (hg d x).trans (ih _)

theorem sameBut_preserveCurrentTags (rev : Dict Str) (d : Doc) : SameBut d (d.preserveCurrentTags rev) :=
  sameBut_foldl _ (fun d i => (sameBut_setAttr d i _ _).trans (sameBut_setAttr _ i _ _)) _ d

theorem sameBut_resetCurrentTags (d : Doc) : SameBut d d.resetCurrentTags :=
  sameBut_foldl _ (fun d i => (sameBut_setAttr d i _ _).trans (sameBut_setAttr _ i _ _)) _ d

theorem sameBut_clearSamePreserved (d : Doc) (i : Nat) (l : Option Nat) : SameBut d (d.clearSamePreserved i l) := by
  unfold Doc.clearSamePreserved
  simp only
  split
  · refine sameBut_foldl _ ?_ _ d
    intro d j
    split
    · exact sameBut_setAttr d j _ _
    · exact .refl d
  · exact .refl d

theorem sameBut_setTag (d : Doc) (i : Nat) (tag : Option Str) (level : Option Nat) (scope : Option Str) :
    SameBut d (d.setTag i tag level scope) := by
  unfold Doc.setTag
  simp only
  split
  · exact sameBut_setAttr d i _ _
  · split
    · split
      · exact ((sameBut_setAttr d i _ _).trans (sameBut_clearSamePreserved _ _ _)).trans
          (sameBut_clearSamePreserved _ _ _)
      · exact (sameBut_setAttr d i _ _).trans (sameBut_clearSamePreserved _ _ _)
    · exact sameBut_setAttr d i _ _

/-! ### Attributes after a change -/

theorem getAttr_setAttr (d : Doc) (i j : Nat) (n m : Str) (v : Option Str) :
    (d.setAttr i n v).getAttr j m = if j = i ∧ m = n then v else d.getAttr j m := by
  simp only [Doc.getAttr, Doc.setAttr, Doc.modAttrib]
  by_cases hj : j = i
  · subst hj
    simp only [if_true, Dict.get?_setOrRemove, true_and]
  · simp [hj]

theorem getAttr_foldl_clear (n m : Str) (v : Option Str) (j : Nat) (ids : List Nat) (d : Doc) :
    (ids.foldl (fun d j => if stripTagPrefix (d.getAttr j n) = v then d.setAttr j n none else d) d).getAttr j m =
      if j ∈ ids ∧ m = n ∧ stripTagPrefix (d.getAttr j m) = v then none else d.getAttr j m := by
  induction ids generalizing d with
  | nil => simp
  | cons k ids ih =>
    rw [List.foldl_cons, ih]
    by_cases hk : stripTagPrefix (d.getAttr k n) = v
    · simp only [hk, if_true, getAttr_setAttr]
      by_cases hjk : j = k ∧ m = n
      · obtain ⟨rfl, rfl⟩ := hjk
        simp [hk]
      · simp only [hjk, if_false, List.mem_cons]
        by_cases hmn : m = n
        · have hjk' : j ≠ k := fun h => hjk ⟨h, hmn⟩
          simp [hjk']
        · simp [hmn]
    · simp only [hk, if_false, List.mem_cons]
      by_cases hjk : j = k
      · subst hjk
        by_cases hmn : m = n
        · subst hmn; simp [hk]
        · simp [hmn]
      · simp [hjk]

theorem getAttr_clearSamePreserved (d : Doc) (i j : Nat) (l : Option Nat) (m : Str) :
    (d.clearSamePreserved i l).getAttr j m =
      if j ∈ d.lineOf i ∧ m = scopedAttribName preservedTagAttribName none l ∧
          truthy (stripTagPrefix (d.getAttr i m)) = true ∧
          stripTagPrefix (d.getAttr j m) = stripTagPrefix (d.getAttr i m)
      then none else d.getAttr j m := by
  have e : d.clearSamePreserved i l =
      if truthy (stripTagPrefix (d.getAttr i (scopedAttribName preservedTagAttribName none l))) = true then
        (d.lineOf i).foldl (fun d' j =>
          if stripTagPrefix (d'.getAttr j (scopedAttribName preservedTagAttribName none l)) =
              stripTagPrefix (d.getAttr i (scopedAttribName preservedTagAttribName none l)) then
            d'.setAttr j (scopedAttribName preservedTagAttribName none l) none
          else d') d
      else d := rfl
  rw [e]
  by_cases ht : truthy (stripTagPrefix (d.getAttr i (scopedAttribName preservedTagAttribName none l))) = true
  · rw [if_pos ht, getAttr_foldl_clear _ _ _]
    by_cases hmn : m = scopedAttribName preservedTagAttribName none l
    · rw [hmn]; simp [ht]
    · simp [hmn]
  · rw [if_neg ht]
    by_cases hmn : m = scopedAttribName preservedTagAttribName none l
    · rw [hmn]; simp [ht]
    · simp [hmn]

/-! ### Documents made of lines -/

theorem number_flatten (n : Nat) (ls : List (List Tok)) :
    (Doc.number n ls).flatten = List.range' n ls.flatten.length := by
  induction ls generalizing n with
  | nil => rfl
  | cons l ls ih =>
    simp only [Doc.number, List.flatten_cons, ih, List.length_append]
    rw [List.range'_append_1]

theorem map_range'_getD (pre l post : List Tok) (x : Tok) :
    (List.range' pre.length l.length).map (fun i => (pre ++ l ++ post).getD i x) = l := by
  induction l generalizing pre with
  | nil => rfl
  | cons t l ih =>
    simp only [List.length_cons, List.range'_succ, List.map_cons, List.cons.injEq]
    constructor
    · simp
    · have := ih (pre ++ [t])
      simpa using this

theorem number_map (pre : List Tok) (ls : List (List Tok)) (x : Tok) :
    (Doc.number pre.length ls).map (fun l => l.map (fun i => (pre ++ ls.flatten).getD i x)) = ls := by
  induction ls generalizing pre with
  | nil => rfl
  | cons l ls ih =>
    simp only [Doc.number, List.map_cons, List.flatten_cons, List.cons.injEq]
    constructor
    · have := map_range'_getD pre l ls.flatten x
      simpa using this
    · have := ih (pre ++ l)
      simpa using this

theorem lineToks_ofLines (ls : List (List Tok)) : (Doc.ofLines ls).lineToks = ls := by
  have := number_map [] ls ⟨[], false, [], none⟩
  simp only [List.length_nil, List.nil_append] at this
  simpa [Doc.lineToks, Doc.ofLines, List.map_map, Function.comp_def] using this

theorem sameBut_lineToks_text {d d' : Doc} (h : SameBut d d') :
    d'.lineToks.map (fun l => l.flatMap (·.text)) = d.lineToks.map (fun l => l.flatMap (·.text)) := by
  simp only [Doc.lineToks, h.lines, List.map_map]
  apply List.map_congr_left
  intro l _
  simp only [Function.comp_apply, List.flatMap_map]
  congr 1
  funext j
  exact h.text j

theorem flatten_flatMap_text (ls : List (List Tok)) :
    ls.flatten.flatMap (·.text) = (ls.map (fun l => l.flatMap (·.text))).flatten := by
  induction ls with
  | nil => rfl
  | cons l ls ih => simp [ih]

/-! ### Replacing an element -/

theorem itertextList_append (a b : List Elem) : itertextList (a ++ b) = itertextList a ++ itertextList b := by
  induction a with
  | nil => rfl
  | cons e a ih => obtain ⟨t, at', x, cs, tl⟩ := e; simp [itertextList, ih]

theorem itertextList_cons (e : Elem) (es : List Elem) :
    itertextList (e :: es) = itertext e ++ orEmpty e.tail ++ itertextList es := by
  obtain ⟨t, a, x, cs, tl⟩ := e; rfl

theorem replaceChild_some_iff (t : Str) (rec : Elem → Option Elem) (cs : List Elem) :
    (∃ cs', replaceChild t rec cs = some cs') ↔ ∃ c ∈ cs, c.tag = t ∧ ∃ c', rec c = some c' := by
  induction cs with
  | nil => simp [replaceChild]
  | cons c cs ih =>
    simp only [replaceChild]
    split
    · next c' hc =>
      split at hc
      · next ht => simp only [Option.some.injEq, exists_eq', true_iff]; exact ⟨c, by simp, ht, c', hc⟩
      · cases hc
    · next hc =>
      simp only [Option.map_eq_some_iff, List.mem_cons, exists_eq_or_imp]
      constructor
      · rintro ⟨_, cs', h, _⟩
        exact .inr (ih.1 ⟨cs', h⟩)
      · rintro (⟨h1, c', h2⟩ | h)
        · rw [if_pos h1, h2] at hc; cases hc
        · obtain ⟨cs', h⟩ := ih.2 h
          exact ⟨_, cs', h, rfl⟩

/-- An element is found exactly when `replaceFirst` succeeds, and replacing the first one found
by an element of the same text (including the tail) keeps the text. -/
theorem replaceFirst_text (new : Elem) (path : List Str) (e : Elem) :
    (∀ c rest, findAll path e = c :: rest → Spec.outerText new = Spec.outerText c →
      ∃ e', replaceFirst (fun _ => new) path e = some e' ∧ Spec.outerText e' = Spec.outerText e ∧
        (path ≠ [] → e'.tail = e.tail)) ∧
    (findAll path e = [] → replaceFirst (fun _ => new) path e = none) := by
  induction path generalizing e with
  | nil =>
    refine ⟨?_, by simp [findAll]⟩
    intro c rest h ht
    simp only [findAll, List.cons.injEq] at h
    rw [← h.1] at ht
    exact ⟨new, rfl, ht, by simp⟩
  | cons t ts ih =>
    obtain ⟨tg, a, x, cs, tl⟩ := e
    simp only [findAll, replaceFirst, Elem.children]
    have key : (∀ c rest, (cs.filter (fun c => c.tag = t)).flatMap (findAll ts) = c :: rest →
        Spec.outerText new = Spec.outerText c →
        ∃ cs', replaceChild t (replaceFirst (fun _ => new) ts) cs = some cs' ∧
          itertextList cs' = itertextList cs) ∧
        ((cs.filter (fun c => c.tag = t)).flatMap (findAll ts) = [] →
          replaceChild t (replaceFirst (fun _ => new) ts) cs = none) := by
      induction cs with
      | nil => simp [replaceChild]
      | cons d cs ihc =>
        by_cases hd : d.tag = t
        · simp only [List.filter_cons, hd, decide_true, if_true, List.flatMap_cons, replaceChild]
          cases hfd : findAll ts d with
          | nil =>
            rw [(ih d).2 hfd]
            simp only [List.nil_append]
            constructor
            · intro c rest h ht
              obtain ⟨cs', h1, h2⟩ := ihc.1 c rest h ht
              exact ⟨d :: cs', by rw [h1]; rfl, by rw [itertextList_cons, itertextList_cons, h2]⟩
            · intro h; rw [ihc.2 h]; rfl
          | cons c0 r0 =>
            constructor
            · intro c rest h ht
              simp only [List.cons_append, List.cons.injEq] at h
              rw [← h.1] at ht
              obtain ⟨d', h1, h2, _⟩ := (ih d).1 c0 r0 hfd ht
              rw [h1]
              refine ⟨d' :: cs, rfl, ?_⟩
              rw [itertextList_cons, itertextList_cons]
              unfold Spec.outerText at h2
              rw [h2]
            · intro h; simp at h
        · simp only [List.filter_cons, hd, decide_false, Bool.false_eq_true, if_false, replaceChild]
          constructor
          · intro c rest h ht
            obtain ⟨cs', h1, h2⟩ := ihc.1 c rest h ht
            exact ⟨d :: cs', by rw [h1]; rfl, by rw [itertextList_cons, itertextList_cons, h2]⟩
          · intro h; rw [ihc.2 h]; rfl
    constructor
    · intro c rest h ht
      obtain ⟨cs', h1, h2⟩ := key.1 c rest h ht
      exact ⟨.mk tg a x cs' tl, by rw [h1]; rfl, by simp [Spec.outerText, itertext, h2, Elem.tail], fun _ => rfl⟩
    · intro h
      rw [key.2 h]; rfl

/-! ### Preserving and resetting tags -/

/-- A change of the attributes of a token that does not depend on other tokens. -/
theorem foldl_attr {g : Doc → Nat → Doc} {F : (Str → Option Str) → Str → Option Str}
    (hg : ∀ d i j m, (g d i).getAttr j m = if j = i then F (d.getAttr j) m else d.getAttr j m)
    (hF : ∀ a, F (F a) = F a) (ids : List Nat) (d : Doc) (j : Nat) :
    (ids.foldl g d).getAttr j = if j ∈ ids then F (d.getAttr j) else d.getAttr j := by
  induction ids generalizing d with
  | nil => simp
  | cons i ids ih =>
    rw [List.foldl_cons, ih]
    have e : (g d i).getAttr j = if j = i then F (d.getAttr j) else d.getAttr j := by
      funext m; rw [hg]; split <;> rfl
    by_cases hji : j = i
    · subst hji
      rw [e]
      simp only [if_true, hF, List.mem_cons, true_or]
      split <;> rfl
    · rw [e]; simp [hji]

/-- The preserved value of a tag. -/
def preservedOf (rev : Dict Str) (full : Option Str) : Option Str :=
  addTagPrefix ((splitTagPrefix full).2.map (fun t => rev.getD t t)) (splitTagPrefix full).1

theorem getAttr_preserveCurrentTags (rev : Dict Str) (d : Doc) (j : Nat) :
    (d.preserveCurrentTags rev).getAttr j =
      if j ∈ d.allTokens then fun m =>
        if m = c!"level2_preserved_tag" then preservedOf rev (d.getAttr j c!"level2_tag")
        else if m = c!"preserved_tag" then preservedOf rev (d.getAttr j c!"tag")
        else d.getAttr j m
      else d.getAttr j := by
  refine foldl_attr (F := fun a m =>
    if m = c!"level2_preserved_tag" then preservedOf rev (a c!"level2_tag")
    else if m = c!"preserved_tag" then preservedOf rev (a c!"tag") else a m) ?_ ?_ d.allTokens d j
  · intro d i j m
    have e1 : ∀ (d : Doc) (l : Option Nat), Doc.preserveToken rev d i l =
        d.setAttr i (scopedAttribName preservedTagAttribName none l)
          (preservedOf rev (d.getAttr i (scopedAttribName tagAttribName none l))) := fun d l => rfl
    have n1 : scopedAttribName preservedTagAttribName none none = c!"preserved_tag" := by decide
    have n2 : scopedAttribName preservedTagAttribName none (some subLevel) = c!"level2_preserved_tag" := by decide
    have n3 : scopedAttribName tagAttribName none none = c!"tag" := by decide
    have n4 : scopedAttribName tagAttribName none (some subLevel) = c!"level2_tag" := by decide
    rw [e1, e1, n1, n2, n3, n4]
    simp only [getAttr_setAttr]
    by_cases hji : j = i
    · subst hji
      simp
    · simp [hji]
  · intro a
    funext m
    by_cases h2 : m = c!"level2_preserved_tag"
    · simp [h2]
    · by_cases h1 : m = c!"preserved_tag"
      · simp [h1]
      · simp [h1, h2]

theorem getAttr_resetCurrentTags (d : Doc) (j : Nat) :
    d.resetCurrentTags.getAttr j =
      if j ∈ d.allTokens then fun m =>
        if m = c!"tag" ∨ m = c!"level2_tag" then none else d.getAttr j m
      else d.getAttr j := by
  refine foldl_attr (F := fun a m => if m = c!"tag" ∨ m = c!"level2_tag" then none else a m) ?_ ?_
    d.allTokens d j
  · intro d i j m
    have n3 : scopedAttribName tagAttribName none none = c!"tag" := by decide
    simp only [Doc.setTagOnly, Doc.setSubTagOnly, getAttr_setAttr, n3, subTagAttribName]
    by_cases hji : j = i
    · subst hji
      by_cases h1 : m = c!"tag"
      · simp [h1]
      · by_cases h2 : m = c!"level2_tag" <;> simp [h1, h2]
    · simp [hji]
  · intro a
    funext m
    by_cases h : m = c!"tag" ∨ m = c!"level2_tag" <;> simp [h]

theorem splitTagPrefix_match (t : Str) :
    (∃ v, t = 'b' :: '-' :: v ∧ splitTagPrefix (some t) = (some bPrefix, some v)) ∨
    (∃ v, t = 'i' :: '-' :: v ∧ splitTagPrefix (some t) = (some iPrefix, some v)) ∨
    ((∀ v, t ≠ 'b' :: '-' :: v) ∧ (∀ v, t ≠ 'i' :: '-' :: v) ∧
      splitTagPrefix (some t) = (none, some t)) := by
  rcases splitTagPrefix_cases (some t) with ⟨v, h1, h2⟩ | ⟨v, h1, h2⟩ | ⟨h1, h2, h3⟩
  · simp only [Option.some.injEq] at h1
    exact .inl ⟨v, h1, h2⟩
  · simp only [Option.some.injEq] at h1
    exact .inr (.inl ⟨v, h1, h2⟩)
  · exact .inr (.inr ⟨fun v h => h1 v (by rw [h]; rfl), fun v h => h2 v (by rw [h]; rfl), h3⟩)

theorem addTagPrefix_withPrefix (p v : Str) (hp : p ≠ []) :
    addTagPrefix (some v) (some p) = some (Spec.withPrefix p v) := by
  unfold Spec.withPrefix
  by_cases hv : v = []
  · subst hv; cases p <;> simp [addTagPrefix]
  · rw [addTagPrefix_of_truthy hv hp, if_neg hv]

theorem preservedOf_eq (rev : Dict Str) (full : Option Str) :
    preservedOf rev full = full.map (Spec.renameTag (fun t => rev.getD t t)) := by
  unfold preservedOf
  cases full with
  | none => simp [addTagPrefix_none_left]
  | some t =>
    rcases splitTagPrefix_match t with ⟨v, h1, h2⟩ | ⟨v, h1, h2⟩ | ⟨h1, h2, h3⟩
    · rw [h2, h1]
      exact addTagPrefix_withPrefix _ _ (by decide)
    · rw [h2, h1]
      exact addTagPrefix_withPrefix _ _ (by decide)
    · rw [h3]
      have : Spec.renameTag (fun t => rev.getD t t) t = rev.getD t t := by
        unfold Spec.renameTag
        split
        · next v => exact absurd rfl (h1 v)
        · next v => exact absurd rfl (h2 v)
        · rfl
      simp only [Option.map_some, this, addTagPrefix]

theorem get?_foldl_set (ps : List (Str × Str)) (d : Dict Str) (k : Str) :
    (ps.foldl (fun d p => Dict.set d p.1 p.2) d).get? k =
      match (ps.filter (fun p => p.1 = k)).getLast? with
      | some p => some p.2
      | none => d.get? k := by
  induction ps generalizing d with
  | nil => rfl
  | cons p ps ih =>
    rw [List.foldl_cons, ih]
    by_cases hp : p.1 = k
    · simp only [List.filter_cons, hp, decide_true, if_true, List.getLast?_cons]
      cases (ps.filter (fun p => p.1 = k)).getLast? with
      | none => simp
      | some q => simp
    · simp only [List.filter_cons, hp, decide_false, Bool.false_eq_true, if_false]
      rw [Dict.get?_set_ne _ _ (Ne.symm hp)]

theorem revMapping_getD (mapping : Dict Str) (t : Str) :
    (Doc.revMapping mapping).getD t t = Spec.tagOfPath mapping t := by
  unfold Dict.getD Doc.revMapping Dict.ofPairs Spec.tagOfPath
  rw [get?_foldl_set]
  have : ((mapping.map (fun p => (p.2, p.1))).filter (fun p => decide (p.1 = t))) =
      (mapping.filter (fun p => decide (p.2 = t))).map (fun p => (p.2, p.1)) := by
    rw [List.filter_map]; rfl
  rw [this, List.getLast?_map]
  cases (mapping.filter (fun p => decide (p.2 = t))).getLast? <;> simp

/-- Freshly loaded tokens have no attributes but the tags. -/
theorem onlyTagsInv (cc : CharClass) :
    TokInv cc (fun ts => ∀ t ∈ ts, ∀ m, m ≠ c!"tag" → m ≠ c!"level2_tag" → t.attrib.get? m = none) := by
  refine ⟨by simp, ?_⟩
  intro b s hs h t ht m hm1 hm2
  have hnew : ∀ a b', (toTextToken cc s a b').attrib.get? m = none := by
    intro a b'
    rcases a with _ | a <;> rcases b' with _ | b' <;>
      simp [toTextToken, tagAttribName, subTagAttribName, Dict.set, Dict.get?, Ne.symm hm1, Ne.symm hm2]
  unfold Buf.appendToken at ht
  cases hb : b.rev with
  | nil =>
    rw [hb] at ht
    rw [List.mem_singleton.1 ht]; exact hnew _ _
  | cons u us =>
    rw [hb] at ht h
    simp only [List.mem_cons] at ht
    rcases ht with rfl | rfl | ht
    · exact hnew _ _
    · exact h u (by simp) m hm1 hm2
    · exact h t (by simp [ht]) m hm1 hm2

theorem allTokens_ofLines (ls : List (List Tok)) :
    (Doc.ofLines ls).allTokens = List.range ls.flatten.length := by
  rw [List.range_eq_range', ← number_flatten]
  simp only [Doc.allTokens, Doc.ofLines]
  generalize Doc.number 0 ls = l
  induction l with
  | nil => rfl
  | cons a l ih => rw [List.map_cons, List.flatMap_cons, ih, List.flatten_cons]

theorem SameBut.allTokens {d d' : Doc} (h : SameBut d d') : d'.allTokens = d.allTokens := by
  unfold Doc.allTokens; rw [h.lines]

end Verif
