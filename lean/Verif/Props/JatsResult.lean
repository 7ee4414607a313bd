/-
C113, C114, C115: What a fixed reference contains.
-/
import Verif.Props.JatsText
import Verif.Lemmas.JatsResult
import Verif.Props.JatsFix

namespace Verif
open Spec

/-! ## C113 Known types of identifiers are in lower case -/

/-- C113: in a fixed reference no identifier has a known type written in another way than in lower
case. -/
theorem C113_types (env : JatsEnv) (hl : Lowercase env.lower) (n n' : JNode) (hp : PlainReference n) (h : fixReference env n = .ok n')
    (e : JNode) (he : e ∈ jAlls n'.children) (htag : e.tag = c!"pub-id") (ty : Str) (hty : e.attrs.get? c!"pub-id-type" = some ty)
    (hk : env.lower ty ∈ jatsIdTypes) : ty = env.lower ty :=
  (fixReference_low hl hp h (shapeOf e) (mem_shapes_of_child he) htag ty hty
    ((by decide : ∀ x ∈ jatsIdTypes, x ∈ knownPubIdTypes) _ hk)).symm

/-- C113: types that are not known are not changed by the conversion, and nothing else is. -/
theorem C113_only_types (env : JatsEnv) (fresh : Nat) (c : JCtx) (t : Option Str) (cs : List JNode) (b : Bool)
    (h : fixOp env .lowerType fresh c = .ok (t, cs, b)) :
    t = c.text ∧ ∃ e, cs = c.left ++ e :: c.right ∧ e.tag = c.el.tag ∧ e.text = c.el.text ∧ e.children = c.el.children ∧ e.tail = c.el.tail ∧
      (∀ key, key ≠ c!"pub-id-type" → e.attrs.get? key = c.el.attrs.get? key) ∧
      (e.attrs.get? c!"pub-id-type" = c.el.attrs.get? c!"pub-id-type" ∨
        ∃ ty, c.el.attrs.get? c!"pub-id-type" = some ty ∧ env.lower ty ∈ jatsIdTypes ∧ e.attrs.get? c!"pub-id-type" = some (env.lower ty)) := by
  change lowerTypeOp env c = _ at h
  unfold lowerTypeOp at h
  cases h
  refine ⟨rfl, _, rfl, ?_⟩
  split
  · next hc =>
    refine ⟨rfl, rfl, rfl, rfl, fun key hk => Dict.get?_set_ne _ _ hk, .inr ?_⟩
    rw [Bool.and_eq_true] at hc
    cases ht : c.el.attrs.get? c!"pub-id-type" with
    | none => rw [ht] at hc; exact absurd hc.1 (by decide)
    | some ty =>
      rw [ht] at hc
      exact ⟨ty, rfl, (by decide : ∀ x ∈ knownPubIdTypes, x ∈ jatsIdTypes) _ (of_decide_eq_true hc.2), Dict.get?_set_self _ _ _⟩
  · exact ⟨rfl, rfl, rfl, rfl, fun _ _ => rfl, .inl rfl⟩

/-! ## C114 Identifiers consist of the text found by their pattern -/

/-- C114: in a fixed reference every identifier that is a DOI, PMID, PMCID or PII and has a text is
exactly what the pattern for its type found in some text.  Missing: identifiers inside of identifiers
(`C114_nested_identifiers`). -/
theorem C114_identifiers_partial (env : JatsEnv) (n n' : JNode) (hp : PlainReference n) (h : fixReference env n = .ok n')
    (T : Str) (hT : T ∈ [c!"doi", c!"pmid", c!"pmcid", c!"pii"])
    (e : JNode) (he : e ∈ jAlls n'.children) (htag : e.tag = c!"pub-id") (hty : e.attrs.get? c!"pub-id-type" = some T) :
    e.text = none ∨ ∃ x a b, IdFound env T x a b ∧ e.text = some (sliceStr x a b) :=
  fixReference_match hT hp h (shapeOf e) (mem_shapes_of_child he) htag hty

/-- C114: so every DOI of a fixed reference has the form of a DOI. -/
theorem C114_dois_partial (env : JatsEnv) (hcc : DigitsPlain env.cc) (h10 : ∀ c ∈ c!"10.", env.cc.isSpace c = false)
    (ht : TruncatesAtGap env.toJatsTextEnv) (n n' : JNode) (hp : PlainReference n) (h : fixReference env n = .ok n')
    (e : JNode) (he : e ∈ jAlls n'.children) (htag : e.tag = c!"pub-id") (hty : e.attrs.get? c!"pub-id-type" = some c!"doi") :
    e.text = none ∨ ∃ doi, e.text = some doi ∧ IsDoi env.cc doi := by
  rcases C114_identifiers_partial env n n' hp h c!"doi" (by decide) e he htag hty with h1 | ⟨x, a, b, h1, h2⟩
  · exact .inl h1
  · right
    rcases h1 with ⟨_, h1⟩ | ⟨h1, _⟩ | ⟨h1, _⟩ | ⟨h1, _⟩
    · rcases findDoi_spec env.toJatsTextEnv hcc h10 ht x with h3 | ⟨a', b', h3, _, _, h4, _⟩
      · rw [h1] at h3; cases h3
      · rw [h1] at h3; cases h3
        exact ⟨_, h2, h4⟩
    all_goals exact absurd h1 (by decide)

/-- C114: fixing keeps references plain, so that the theorems hold for further runs. -/
theorem C114_plain (env : JatsEnv) (n n' : JNode) (hp : PlainReference n) (h : fixReference env n = .ok n') : PlainReference n' :=
  fixReference_plain hp h

/-! ## C115 Links have their text as target -/

/-- The attributes of the links that are made. -/
def uriLink (target : Str) : Dict Str := [(c!"ext-link-type", c!"uri"), (c!"{http://www.w3.org/1999/xlink}href", target)]

/-- C115: a DOI behind the start of a URL is replaced by a link: its text is the text from there on
with the DOI, its target is that text without white space and with a scheme. -/
theorem C115_doi_link (env : JatsEnv) (fresh : Nat) (c : JCtx) (prev doi : Str) (start stop : Nat)
    (hprev : previousText c.text c.left = some prev) (hf : env.doiUrlPrefix prev = some (start, stop)) (hdoi : c.el.text = some doi) :
    ∃ t l link target, fixOp env .doiLink fresh c = .ok (t, l ++ link :: c.right, false) ∧
      previousText t l = some (prev.take start) ∧ link.tag = c!"ext-link" ∧ link.text = some (prev.drop start ++ doi) ∧ link.children = [] ∧
      orEmpty link.tail = orEmpty c.el.tail ∧ link.attrs = uriLink target ∧ LinkTarget env.cc (prev.drop start ++ doi) target := by
  refine ⟨(setPreviousText c.text c.left (some (prev.take start))).1, (setPreviousText c.text c.left (some (prev.take start))).2,
    extLinkElement env.cc fresh (prev.drop start ++ doi) c.el.tail, fullCleanedUrl env.cc (prev.drop start ++ doi), ?_, ?_, rfl, rfl, rfl, ?_, rfl,
    C115_target _ _⟩
  · show doiLinkOp env fresh c = _
    unfold doiLinkOp
    rw [hprev]
    simp only [hf, hdoi]
  · unfold previousText setPreviousText
    cases hl : c.left.getLast? with
    | none => simp [hl]
    | some e => simp [JNode.setTail, JNode.tail]
  · show orEmpty (if truthy c.el.tail then c.el.tail else none) = _
    match c.el.tail with
    | none => rfl
    | some [] => rfl
    | some (_ :: _) => rfl

/-- C115: a link with several URLs, whose target is the same text, becomes several links, one for
each URL. -/
theorem C115_split (env : JatsEnv) (fresh : Nat) (c : JCtx) (text u : Str) (us : List Str) (hus : us ≠ [])
    (ht : c.el.text = some text) (hsplit : splitUrl text = u :: us)
    (hhref : c.el.attrs.get? c!"{http://www.w3.org/1999/xlink}href" = some text) :
    ∃ e links, fixOp env .splitLink fresh c = .ok (c.text, c.left ++ e :: links ++ c.right, false) ∧
      e.tag = c.el.tag ∧ e.text = some u ∧ e.attrs.get? c!"{http://www.w3.org/1999/xlink}href" = some u ∧ e.children = c.el.children ∧
      links.map (·.text) = us.map some ∧
      ∀ link ∈ links, link.tag = c!"ext-link" ∧ link.tail = none ∧ link.children = [] ∧
        ∃ url target, link.text = some url ∧ link.attrs = uriLink target ∧ LinkTarget env.cc url target := by
  obtain ⟨v, us, rfl⟩ : ∃ v vs, us = v :: vs := by
    cases us with
    | nil => exact absurd rfl hus
    | cons v vs => exact ⟨v, vs, rfl⟩
  have htext : text ≠ [] := by
    rintro rfl
    cases hsplit
  have htr : truthy (some text) = true := by
    cases text with
    | nil => exact absurd rfl htext
    | cons => rfl
  refine ⟨(c.el.setText (some u)).setAttrs (c.el.attrs.set xlinkHref u),
    (v :: us).zipIdx.map (fun p => extLinkElement env.cc (fresh + p.2) p.1 none), ?_, rfl, rfl, Dict.get?_set_self .., rfl, ?_, ?_⟩
  · show splitLinkOp env fresh c = _
    unfold splitLinkOp
    have hh : c.el.attrs.get? xlinkHref = some text := hhref
    simp only [ht, hh, orEmpty, hsplit, htr]
    simp
  · rw [List.map_map]
    have : (fun p : Str × Nat => (extLinkElement env.cc (fresh + p.2) p.1 none).text) = fun p => some p.1 := rfl
    show (v :: us).zipIdx.map (fun p => (extLinkElement env.cc (fresh + p.2) p.1 none).text) = _
    rw [this]
    have h2 : ∀ (l : List Str) (k : Nat), (l.zipIdx k).map (fun p => some p.1) = l.map some := by
      intro l
      induction l with
      | nil => intro k; rfl
      | cons x l ih => intro k; rw [List.zipIdx_cons, List.map_cons, List.map_cons, ih]
    exact h2 _ _
  · intro link hl
    obtain ⟨p, _, rfl⟩ := List.mem_map.mp hl
    exact ⟨rfl, rfl, rfl, p.1, _, rfl, rfl, C115_target _ _⟩

/-- C115: the target of a link is only ever shortened at its end, and only if it contains
`doi.org`. -/
theorem C115_shortened (env : JatsEnv) (fresh : Nat) (c : JCtx) (t : Option Str) (cs : List JNode) (b : Bool)
    (h : fixOp env .linkHref fresh c = .ok (t, cs, b)) :
    t = c.text ∧ ∃ e, cs = c.left ++ e :: c.right ∧ e.text = c.el.text ∧ e.children = c.el.children ∧ e.tail = c.el.tail ∧
      (e.attrs = c.el.attrs ∨ ∃ href stop, c.el.attrs.get? c!"{http://www.w3.org/1999/xlink}href" = some href ∧
        e.attrs = c.el.attrs.set c!"{http://www.w3.org/1999/xlink}href" (href.take stop) ∧
        (href.take stop = href ∨ c!"doi.org" <:+: href ∧ env.doiExtLink href = some stop)) := by
  change linkHrefOp env c = _ at h
  unfold linkHrefOp at h
  cases h
  refine ⟨rfl, _, rfl, ?_⟩
  split
  · next hc =>
    refine ⟨rfl, rfl, rfl, .inr ?_⟩
    cases hr : c.el.attrs.get? xlinkHref with
    | none => rw [hr] at hc; cases hc
    | some href =>
      simp only [orEmpty]
      unfold findExtLink
      by_cases hd : strIn c!"doi.org" href = true
      · rw [if_pos hd]
        refine ⟨href, (env.doiExtLink href).getD href.length, hr, ?_, ?_⟩
        · show c.el.attrs.set xlinkHref _ = _
          simp only [sliceStr, List.drop_zero]
          rfl
        · cases hx : env.doiExtLink href with
          | none => exact .inl (by simp)
          | some stop => exact .inr ⟨(strIn_iff ..).mp hd, rfl⟩
      · rw [if_neg hd]
        refine ⟨href, href.length, hr, ?_, .inl List.take_length⟩
        show c.el.attrs.set xlinkHref _ = _
        simp only [sliceStr, List.drop_zero]
        rfl
  · exact ⟨rfl, rfl, rfl, .inl rfl⟩

/-! ## C49 Quotes and commas of titles with elements inside -/

theorem jTexts_concat (l : List JNode) (n : JNode) : jTexts (l ++ [n]) = jTexts l ++ jText n ++ orEmpty n.tail := by
  rw [jTexts_append, jTexts_cons]
  simp [jTexts]

theorem moveLastOut_jText (e last : JNode) (l : List JNode) (k : Nat) (hc : e.children = l ++ [last]) (ht : orEmpty last.tail ≠ []) :
    jText (moveLastOut e k) = orEmpty e.text ++ jTexts l ++ jText last ++ (orEmpty last.tail).take k := by
  have htr : truthy last.tail = true := by
    match h : last.tail with
    | none => rw [h] at ht; exact absurd rfl ht
    | some [] => rw [h] at ht; exact absurd rfl ht
    | some (_ :: _) => rfl
  unfold moveLastOut
  rw [hc, List.getLast?_concat]
  simp only [htr, if_true]
  rw [jText_eq]
  show orEmpty e.text ++ jTexts ((l ++ [last]).dropLast ++ [last.setTail (some ((orEmpty last.tail).take k))]) = _
  rw [List.dropLast_concat, jTexts_concat]
  have h1 : jText (last.setTail (some ((orEmpty last.tail).take k))) = jText last := by cases last; rfl
  have h2 : orEmpty (last.setTail (some ((orEmpty last.tail).take k))).tail = (orEmpty last.tail).take k := by cases last; rfl
  rw [h1, h2]
  simp

/-- C49: matching quotes around a title that starts and ends with text of its own, with elements in
between, are moved out of it. -/
theorem C49_element_quotes (c : JCtx) (x y : Char) (mid : Str) (l : List JNode) (last : JNode) (hq : QuotePair x y) (hmid : mid ≠ [])
    (htext : jText c.el = x :: mid ++ [y]) (hfirst : orEmpty c.el.text ≠ []) (hch : c.el.children = l ++ [last])
    (hlast : orEmpty last.tail ≠ []) : jText (quotesOp c).el = mid := by
  have hlen : (jText c.el).length = mid.length + 2 := by rw [htext]; simp
  have hpos : 0 < mid.length := List.length_pos_iff.mpr hmid
  have hsurr : hasSurroundingQuotes (jText c.el) 0 (jText c.el).length = true := by
    unfold hasSurroundingQuotes
    rw [Bool.and_eq_true, decide_eq_true_eq, List.any_eq_true]
    refine ⟨by omega, (x, y), hq, ?_⟩
    rw [Bool.and_eq_true, decide_eq_true_eq, decide_eq_true_eq]
    refine ⟨by rw [htext]; rfl, ?_⟩
    rw [hlen, htext, show mid.length + 2 - 1 = (x :: mid).length by simp, List.getElem?_append_right (Nat.le_refl _)]
    simp
  unfold quotesOp
  simp only
  rw [if_neg (by omega), if_pos hsurr]
  simp only
  have htr : truthy c.el.text = true := by
    match h : c.el.text with
    | none => rw [h] at hfirst; exact absurd rfl hfirst
    | some [] => rw [h] at hfirst; exact absurd rfl hfirst
    | some (_ :: _) => rfl
  have hm : (moveFirstOut c).el = c.el.setText (some ((orEmpty c.el.text).drop 1)) := by
    unfold moveFirstOut
    rw [if_pos htr]
  rw [hm]
  have hch' : (c.el.setText (some ((orEmpty c.el.text).drop 1))).children = l ++ [last] := by rw [← hch]; rfl
  have hlt : lastTailLength (c.el.setText (some ((orEmpty c.el.text).drop 1))) = (orEmpty last.tail).length := by
    unfold lastTailLength
    rw [hch', List.getLast?_concat]
  rw [moveLastOut_jText _ last l _ hch' hlast, hlt]
  show (orEmpty c.el.text).drop 1 ++ jTexts l ++ jText last ++ _ = mid
  rw [jText_eq, hch, jTexts_concat] at htext
  obtain ⟨a, r, hr⟩ : ∃ a r, orEmpty c.el.text = a :: r := by
    cases h : orEmpty c.el.text with
    | nil => exact absurd h hfirst
    | cons a r => exact ⟨a, r, rfl⟩
  obtain ⟨s, z, hz⟩ : ∃ s z, orEmpty last.tail = s ++ [z] :=
    ⟨_, _, (List.dropLast_concat_getLast hlast).symm⟩
  rw [hr, hz] at htext ⊢
  rw [List.length_append, List.length_singleton, Nat.add_sub_cancel, List.take_left]
  simp only [List.cons_append, List.cons.injEq, List.drop_succ_cons, List.drop_zero] at htext ⊢
  have h2 : (r ++ (jTexts l ++ jText last ++ s)) ++ [z] = mid ++ [y] := by
    rw [← htext.2]; simp
  have := (List.append_inj' h2 rfl).1
  rw [← this]
  simp

/-- C49: commas and spaces at the end of a title are moved out of it, if they stand behind other
text that follows the last element inside. -/
theorem C49_element_comma (c : JCtx) (l : List JNode) (last : JNode) (hch : c.el.children = l ++ [last])
    (x : Char) (hx : x ∈ orEmpty last.tail) (hxx : x ≠ ',' ∧ x ≠ ' ') :
    ∃ z, jText c.el = jText (commaOp c).el ++ z ∧ (∀ y ∈ z, y = ',' ∨ y = ' ') ∧
      ∃ y, (jText (commaOp c).el).getLast? = some y ∧ y ≠ ',' ∧ y ≠ ' ' := by
  have htail : orEmpty last.tail ≠ [] := List.ne_nil_of_mem hx
  have hjt : jText c.el = orEmpty c.el.text ++ jTexts l ++ jText last ++ orEmpty last.tail := by
    rw [jText_eq, hch, jTexts_concat]; simp
  generalize hA : orEmpty c.el.text ++ jTexts l ++ jText last = A at hjt
  -- the tail: text ending in another character, then commas and spaces
  obtain ⟨t, y, z, ht, hy, hz⟩ : ∃ t y z, orEmpty last.tail = t ++ [y] ++ z ∧ (y ≠ ',' ∧ y ≠ ' ') ∧ ∀ w ∈ z, w = ',' ∨ w = ' ' := by
    generalize orEmpty last.tail = s at hx
    clear hjt htail
    induction s with
    | nil => cases hx
    | cons a s ih =>
      by_cases h : ∃ w ∈ s, w ≠ ',' ∧ w ≠ ' '
      · obtain ⟨w, hw, hww⟩ := h
        by_cases hxs : x ∈ s
        · obtain ⟨t, y, z, h1, h2, h3⟩ := ih hxs
          exact ⟨a :: t, y, z, by rw [h1]; simp, h2, h3⟩
        · -- another character further on
          have : ∀ (s : Str) (w : Char), w ∈ s → w ≠ ',' ∧ w ≠ ' ' → ∃ t y z, s = t ++ [y] ++ z ∧ (y ≠ ',' ∧ y ≠ ' ') ∧ ∀ w ∈ z, w = ',' ∨ w = ' ' := by
            intro s
            induction s with
            | nil => intro w hw; cases hw
            | cons a s ih =>
              intro w hw hww
              by_cases h : ∃ w ∈ s, w ≠ ',' ∧ w ≠ ' '
              · obtain ⟨v, hv, hvv⟩ := h
                obtain ⟨t, y, z, h1, h2, h3⟩ := ih v hv hvv
                exact ⟨a :: t, y, z, by rw [h1]; simp, h2, h3⟩
              · have hwa : w = a := by
                  rcases List.mem_cons.mp hw with h' | h'
                  · exact h'
                  · exact absurd ⟨w, h', hww⟩ h
                refine ⟨[], a, s, rfl, hwa ▸ hww, ?_⟩
                intro v hv
                by_cases h1 : v = ','
                · exact .inl h1
                · by_cases h2 : v = ' '
                  · exact .inr h2
                  · exact absurd ⟨v, hv, h1, h2⟩ h
          obtain ⟨t, y, z, h1, h2, h3⟩ := this s w hw hww
          exact ⟨a :: t, y, z, by rw [h1]; simp, h2, h3⟩
      · have hxa : x = a := by
          rcases List.mem_cons.mp hx with h' | h'
          · exact h'
          · exact absurd ⟨x, h', hxx⟩ h
        refine ⟨[], a, s, rfl, hxa ▸ hxx, ?_⟩
        intro v hv
        by_cases h1 : v = ','
        · exact .inl h1
        · by_cases h2 : v = ' '
          · exact .inr h2
          · exact absurd ⟨v, hv, h1, h2⟩ h
  have hstrip : rstripOf (fun x => x = ',' || x = ' ') (jText c.el) = A ++ t ++ [y] := by
    rw [hjt, ht]
    unfold rstripOf
    rw [show A ++ (t ++ [y] ++ z) = (A ++ t ++ [y]) ++ z by simp, List.reverse_append]
    rw [List.dropWhile_append_of_pos (by
      intro w hw
      have hw : w ∈ z := by simpa using hw
      rcases hz w hw with rfl | rfl <;> rfl)]
    rw [List.reverse_append, List.reverse_singleton, List.singleton_append, List.dropWhile_cons]
    rw [if_neg (by simp [hy.1, hy.2])]
    simp
  have hlen : (jText c.el).length = (A ++ t ++ [y]).length + z.length := by rw [hjt, ht]; simp; omega
  have hres : jText (commaOp c).el = A ++ t ++ [y] := by
    unfold commaOp
    simp only
    rw [hstrip]
    split
    · next heq =>
      have : z = [] := List.length_eq_zero_iff.mp (by omega)
      show jText c.el = _
      rw [hjt, ht, this]; simp
    · have hlt : lastTailLength c.el = (orEmpty last.tail).length := by
        unfold lastTailLength
        rw [hch, List.getLast?_concat]
      show jText (moveLastOut c.el _) = _
      rw [moveLastOut_jText _ last l _ hch htail, hlt, hA, hlen, ht]
      rw [show (t ++ [y] ++ z).length + (A ++ t ++ [y]).length - ((A ++ t ++ [y]).length + z.length) = (t ++ [y]).length by
        simp only [List.length_append]; omega]
      rw [List.take_left]
      simp
  refine ⟨z, ?_, hz, y, ?_, hy⟩
  · rw [hres, hjt, ht]; simp
  · rw [hres]; simp

/-! ### Examples -/

def exJatsRef : JNode :=
  jRef (some c!"A. ") [jEl 2 c!"article-title" (some c!"“A ") [jEl 3 c!"italic" (some c!"b") [] (some c!" c”")] (some c!". "),
    jPubId 4 c!"DOI" (some c!"doi: 10.1234/a") [] (some c!" PMID 123")]

instance decPlain (n : JNode) : Decidable (PlainReference n) :=
  decidable_of_iff (((jAll n).map (·.id)).Nodup ∧ n.tag ≠ c!"pub-id" ∧ ∀ e ∈ jAll n, e.tag = c!"pub-id" → e.children.isEmpty = true)
    ⟨fun ⟨a, b, c⟩ => ⟨a, b, fun e he ht => List.isEmpty_iff.mp (c e he ht)⟩,
      fun ⟨a, b, c⟩ => ⟨a, b, fun e he ht => List.isEmpty_iff.mpr (c e he ht)⟩⟩

example : PlainReference exJatsRef := by decide +kernel

theorem lowercase_example : Lowercase jatsFixExampleEnv.lower where
  twice s := by
    show (s.map Char.toLower).map Char.toLower = s.map Char.toLower
    rw [List.map_map]
    congr 1
    funext c
    simp only [Function.comp, Char.toLower]
    split
    · split
      · next h1 h2 =>
        simp only [UInt32.le_iff_toNat_le, UInt32.toNat_add, seval] at h1 h2
        omega
      · simp
    · rfl
  empty := rfl
  added := by decide

/-- Non-vacuity of `C115_doi_link`, `C115_split`, `C49_element_quotes` and `C49_element_comma`. -/
example : ∃ n', fixReference jatsFixExampleEnv (jRef (some c!"A. ")
      [jEl 2 c!"article-title" (some c!"“A ") [jEl 3 c!"italic" (some c!"b") [] (some c!" c”")] (some c!". "),
       jEl 4 c!"article-title" (some c!"A ") [jEl 5 c!"italic" (some c!"b") [] (some c!" c, ")] (some c!". "),
       jEl 8 c!"year" (some c!"2000") [] (some c!"https://doi.org/"),
       jPubId 6 c!"doi" (some c!"10.1234/x") [] (some c!". "),
       .mk 7 c!"ext-link" [(c!"{http://www.w3.org/1999/xlink}href", c!"http://a/http://b/")] (some c!"http://a/http://b/") [] none]) = .ok n' ∧
    (((jAlls n'.children).filter (fun e => e.tag = c!"article-title")).map jText = [c!"A b c", c!"A b c"] ∧
      ((jAlls n'.children).filter (fun e => e.tag = c!"ext-link")).map (fun e => (orEmpty e.text, e.attrs.get? c!"{http://www.w3.org/1999/xlink}href")) =
        [(c!"https://doi.org/10.1234/x", some c!"https://doi.org/10.1234/x"), (c!"http://a/", some c!"http://a/"), (c!"http://b/", some c!"http://b/")]) :=
  exists_of_okAnd (by decide +kernel)

example : ∃ n', fixReference jatsFixExampleEnv exJatsRef = .ok n' ∧
    ((jAlls n'.children).filter (fun e => e.tag = c!"pub-id")).map (fun e => (e.attrs.get? c!"pub-id-type", e.text)) =
      [(some c!"doi", some c!"10.1234/a"), (some c!"pmid", some c!"123")] :=
  exists_of_okAnd (by decide +kernel)

/-- C114 needs identifiers without elements inside: here the text of a PMID that is not one is
added to the DOI. -/
theorem C114_nested_identifiers : ∃ n',
    fixReference jatsFixExampleEnv (jRef (some c!"x ") [jPubId 2 c!"doi" (some c!"10.1234/a") [jPubId 3 c!"pmid" (some c!" none") [] none] none]) =
      .ok n' ∧
    ((jAlls n'.children).filter (fun e => e.tag = c!"pub-id")).map (fun e => (e.attrs.get? c!"pub-id-type", e.text)) =
      [(some c!"doi", some c!"10.1234/a none")] :=
  exists_of_okAnd (by decide +kernel)

end Verif
