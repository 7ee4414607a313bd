/-
Property C139: references in which there is nothing to fix are left as they are.
-/
import Verif.Lemmas.JatsClean
import Verif.Props.JatsRepairable

namespace Verif
open Spec

/-- Elements with the same identity are the same. -/
theorem clean_unique {n : JNode} (h : ((jAll n).map (·.id)).Nodup) {m e e' : JNode} (hm : m ∈ jAll n) (he : e ∈ m.children)
    (he' : e' ∈ jAlls n.children) (hid : e.id = e'.id) : e = e' := by
  have h1 : e ∈ jAll n := by
    rw [jAll_eq] at hm ⊢
    rcases List.mem_cons.1 hm with rfl | hm
    · exact List.mem_cons_of_mem _ (mem_jAlls_self he)
    · exact List.mem_cons_of_mem _ (jAlls_trans hm he)
  have h2 : e' ∈ jAll n := by rw [jAll_eq]; exact List.mem_cons_of_mem _ he'
  obtain ⟨i, hi, ei⟩ := List.getElem_of_mem h1
  obtain ⟨j, hj, ej⟩ := List.getElem_of_mem h2
  have hi' : i < ((jAll n).map (·.id)).length := by rw [List.length_map]; exact hi
  have : i = j := by
    refine (List.getElem?_inj hi' h).1 ?_
    rw [List.getElem?_map, List.getElem?_map, List.getElem?_eq_getElem hi, List.getElem?_eq_getElem hj, ei, ej]
    simp [hid]
  subst this
  rw [← ei, ← ej]

/-- What the elements of a step have in common, in a clean reference. -/
theorem clean_leaves {env : JatsEnv} {k : JatsFix} {n : JNode} {i fresh : Nat} (h : CleanReference env n) (hi : i ∈ fixSelect k n) {m e : JNode}
    {l r : List JNode} (hm : m ∈ jAll n) (hc : m.children = l ++ e :: r) (he : e.id = i) : Leaves (fixOp env k fresh) ⟨m.text, l, e, r⟩ := by
  have hel := h.elements m hm l e r _ hc (previousText_before _ _)
  have sel : ∀ p, i ∈ selectIds p n → p e = true ∧ e ∈ jAlls n.children := by
    intro p hp
    obtain ⟨e', h1, h2, h3⟩ := selectIds_mem hp
    have : e = e' := clean_unique h.ids hm (by rw [hc]; simp) h1 (he.trans h3.symm)
    subst this
    exact ⟨h2, h1⟩
  have tag : ∀ g, i ∈ selectIds (fun n => n.tag = g) n → e.tag = g := fun g hg => of_decide_eq_true (sel _ hg).1
  have cit : ∀ p, i ∈ citationsUnless p n → (∀ e ∈ jAlls n.children, p e = false) ∧ e ∈ jAlls n.children ∧ e.tag = c!"mixed-citation" := by
    intro p hp
    unfold citationsUnless at hp
    split at hp
    · next h0 =>
      refine ⟨fun x hx => ?_, (sel _ hp).2, tag _ hp⟩
      rw [List.isEmpty_iff] at h0
      unfold selectIds at h0
      rw [List.map_eq_nil_iff, List.filter_eq_nil_iff] at h0
      exact Bool.eq_false_iff.2 (h0 x hx)
    · cases hp
  cases k with
  | lowerType => exact leaves_lower (hel.type (tag _ hi))
  | title =>
    refine leaves_change (find := fixFind env .title) ?_
    have ht := tag _ hi
    show Except.ok (some (findArticleTitle env.toJatsTextEnv (orEmpty e.text))) = _
    have hq : hasSurroundingQuotes (orEmpty e.text) 0 (orEmpty e.text).length = false := by
      cases hx : orEmpty e.text with
      | nil => rfl
      | cons x s => exact hasSurrounding_false _ (hel.quotes ht x (s ++ jTexts e.children) (by rw [jText_eq, hx]; rfl))
    unfold findArticleTitle
    rcases hel.label ht with h1 | h1 <;> rw [h1] <;> simp only [Option.getD_none, Option.getD_some, hq] <;> rfl
  | titleQuotes => exact leaves_titleQuotes (hel.quotes (tag _ hi)) (hel.comma (tag _ hi))
  | doi => exact leaves_change (hel.doi (sel _ hi).1)
  | doiLink => exact leaves_doiLink (hel.url (sel _ hi).1)
  | splitLink => exact leaves_split (hel.oneUrl (tag _ hi))
  | linkText =>
    refine leaves_change (find := fixFind env .linkText) ?_
    show Except.ok (some (findExtLink env (orEmpty e.text))) = _
    rw [findExtLink_whole (hel.link (tag _ hi))]
  | linkHref => exact leaves_href (hel.href (tag _ hi))
  | pii => exact leaves_change (congrArg Except.ok (hel.pii (sel _ hi).1))
  | pmid => exact leaves_change (congrArg Except.ok (hel.pmid (sel _ hi).1))
  | pmcid => exact leaves_change (congrArg Except.ok (hel.pmcid (sel _ hi).1))
  | addPmid => exact leaves_add (h.add.pmid (cit _ hi).1 e (cit _ hi).2.1 (cit _ hi).2.2)
  | addPmcid => exact leaves_add (h.add.pmcid (cit _ hi).1 e (cit _ hi).2.1 (cit _ hi).2.2)
  | addPii => exact leaves_add (h.add.pii (cit _ hi).1 e (cit _ hi).2.1 (cit _ hi).2.2)
  | addPiiOther => exact leaves_add (h.add.piiOther (cit _ hi).1 e (cit _ hi).2.1 (cit _ hi).2.2)
  | addWos => exact leaves_add (h.add.wos e (cit _ hi).2.1 (cit _ hi).2.2)
  | addDoi => exact leaves_add (h.add.doi (cit _ hi).1 e (cit _ hi).2.1 (cit _ hi).2.2)

theorem selectIds_shown {p : JNode → Bool} (hp : ∀ e, p (shown e) = p e) {n n' : JNode} (h : shown n' = shown n) : selectIds p n' = selectIds p n := by
  have key : ∀ n, selectIds p (shown n) = selectIds p n := by
    intro n
    unfold selectIds
    rw [shown_children, jAlls_shown, List.filter_map, List.map_map]
    have e1 : (fun x : JNode => x.id) ∘ shown = (fun x => x.id) := funext shown_id
    have e2 : p ∘ shown = p := funext hp
    rw [e1, e2]
  rw [← key n', h, key]

theorem fixSelect_shown {k : JatsFix} {n n' : JNode} (h : shown n' = shown n) : fixSelect k n' = fixSelect k n := by
  have tag : ∀ g : Str, ∀ e : JNode, decide ((shown e).tag = g) = decide (e.tag = g) := fun g e => by rw [shown_tag]
  have cit : ∀ p : JNode → Bool, (∀ e, p (shown e) = p e) → citationsUnless p n' = citationsUnless p n := by
    intro p hp
    unfold citationsUnless
    rw [selectIds_shown hp h, selectIds_shown (tag _) h]
  cases k <;> first
    | exact selectIds_shown (tag _) h
    | exact selectIds_shown (isPubId_shown _) h
    | exact cit _ (isPubId_shown _)
    | exact cit _ (fun _ => rfl)

theorem runIds_clean {env : JatsEnv} {k : JatsFix} (is : List Nat) : ∀ {n n' : JNode}, CleanReference env n → (∀ i ∈ is, i ∈ fixSelect k n) →
    runIds env k is n = .ok n' → shown n' = shown n := by
  induction is with
  | nil => intro n n' _ _ hx; cases hx; rfl
  | cons i is ih =>
    intro n n' h hs hx
    unfold runIds at hx
    cases he : editAt i (fixOp env k (freshId n)) n with
    | error x => rw [he] at hx; cases hx
    | ok q =>
      obtain ⟨n1, stop⟩ := q
      rw [he] at hx
      have h1 : shown n1 = shown n :=
        editAt_leaves i _ n (fun m hm l e r hc hid => clean_leaves h (hs i List.mem_cons_self) hm hc hid) n1 stop he
      cases stop with
      | true => cases hx; exact h1
      | false =>
        refine (ih (clean_of_shown h h1) (fun j hj => ?_) hx).trans h1
        rw [fixSelect_shown h1]
        exact hs j (List.mem_cons_of_mem _ hj)

theorem runFixes_clean {env : JatsEnv} (ks : List JatsFix) : ∀ {n n' : JNode}, CleanReference env n → runFixes env ks n = .ok n' →
    shown n' = shown n := by
  induction ks with
  | nil => intro n n' _ hx; cases hx; rfl
  | cons k ks ih =>
    intro n n' h hx
    unfold runFixes at hx
    cases he : runFix env k n with
    | error x => rw [he] at hx; cases hx
    | ok n1 =>
      rw [he] at hx
      have h1 := runIds_clean (fixSelect k n) h (fun _ hi => hi) he
      exact (ih (clean_of_shown h h1) hx).trans h1

/-- **C139.** A reference in which there is nothing to fix is left as it is: the same elements, attributes, texts and tails. -/
theorem C139_unchanged (env : JatsEnv) (n n' : JNode) (h : CleanReference env n) (hx : fixReference env n = .ok n') : shown n' = shown n :=
  runFixes_clean fixSteps h hx

/-- The references and the document without them determine the document. -/
theorem shown_of_refs (a : JNode) : ∀ (b : JNode) (anc : List Str), emptyRefsAt anc a = emptyRefsAt anc b →
    (refsAt anc a).length = (refsAt anc b).length ∧ ((refsAt anc a).map shown = (refsAt anc b).map shown → shown a = shown b) := by
  refine JNode.rec
    (motive_1 := fun a => ∀ (b : JNode) (anc : List Str), emptyRefsAt anc a = emptyRefsAt anc b →
      (refsAt anc a).length = (refsAt anc b).length ∧ ((refsAt anc a).map shown = (refsAt anc b).map shown → shown a = shown b))
    (motive_2 := fun as => ∀ (bs : List JNode) (anc : List Str), emptyRefsAts anc as = emptyRefsAts anc bs →
      (refsAts anc as).length = (refsAts anc bs).length ∧
        ((refsAts anc as).map shown = (refsAts anc bs).map shown → as.map shown = bs.map shown)) ?_ ?_ ?_ a
  · intro i g at1 t cs tl ih b anc h
    obtain ⟨i', g', at', t', cs', tl'⟩ := b
    have hg : g = g' := by
      have := congrArg JNode.tag h
      unfold emptyRefsAt at this
      split at this <;> split at this <;> exact this
    subst hg
    unfold emptyRefsAt at h
    unfold refsAt
    by_cases hp : RefPath anc g
    · rw [if_pos ((isRefAt_iff anc g).2 hp), if_pos ((isRefAt_iff anc g).2 hp)]
      exact ⟨rfl, fun e => (List.cons.inj e).1⟩
    · have hp' : ¬ isRefAt anc g = true := fun e => hp ((isRefAt_iff anc g).1 e)
      rw [if_neg hp', if_neg hp']
      rw [if_neg hp, if_neg hp] at h
      injection h with h1 h2 h3 h4 h5 h6
      obtain ⟨e1, e2⟩ := ih cs' _ h5
      refine ⟨e1, fun e => ?_⟩
      subst h1 h3 h4 h6
      exact shown_ext rfl rfl rfl rfl (e2 e) rfl
  · intro bs anc h
    cases bs with
    | nil => exact ⟨rfl, fun _ => rfl⟩
    | cons b bs => unfold emptyRefsAts at h; cases h
  · intro n ns ih1 ih2 bs anc h
    cases bs with
    | nil => unfold emptyRefsAts at h; cases h
    | cons b bs =>
      unfold emptyRefsAts at h
      obtain ⟨h1, h2⟩ := List.cons.inj h
      obtain ⟨e1, e2⟩ := ih1 b anc h1
      obtain ⟨g1, g2⟩ := ih2 bs anc h2
      unfold refsAts
      refine ⟨by rw [List.length_append, List.length_append, e1, g1], fun e => ?_⟩
      rw [List.map_append, List.map_append] at e
      obtain ⟨x1, x2⟩ := List.append_inj e (by rw [List.length_map, List.length_map, e1])
      rw [List.map_cons, List.map_cons, e2 x1, g2 x2]

theorem changedOf_same {ser : JNode → Str} (hser : ∀ a b, shown a = shown b → ser a = ser b) (l : List JNode) :
    ∀ l', l'.map shown = l.map shown → changedOf ser l l' = [] := by
  induction l with
  | nil => intro l' _; unfold changedOf; rfl
  | cons a l ih =>
    intro l' h
    cases l' with
    | nil => rfl
    | cons b l' =>
      obtain ⟨h1, h2⟩ := List.cons.inj h
      unfold changedOf
      rw [if_pos (hser _ _ h1.symm)]
      exact ih l' h2

/-- **C139**, for a file: if there is nothing to fix in all references of a document then it is written with the five entries added, which say
that no reference was changed, and otherwise as it was read. -/
theorem C139_file (env : JatsEnv) (parse : Str → Except Nat JNode) (ser : JNode → Str) (hser : ∀ a b, shown a = shown b → ser a = ser b)
    (now data : Str) (out : JNode)
    (hclean : ∀ root malformed, ReadAs parse data root malformed → RefsApart root ∧ ∀ r, IsRef root r → CleanReference env r)
    (h : fixJatsFile env parse ser now data = .ok out) :
    ∃ root malformed fixed added,
      ReadAs parse data root malformed ∧ shown fixed = shown root ∧ MetaAdded fixed out added ∧
      MetaPairs added [
        (c!"fix-jats-note", c!"This XML file had been modified to fix some of the potential errors."),
        (c!"fix-jats-run-timestamp", now),
        (c!"fix-jats-malformatted-xml", if malformed then c!"true" else c!"false"),
        (c!"fix-jats-changed-reference-count", c!"0"),
        (c!"fix-jats-changed-reference-ids", [])] := by
  obtain ⟨root, m, fixed, changed, added, h1, h2, h3, h4, h5, h6⟩ := C102_document env parse ser now data out h
  obtain ⟨hap, hc⟩ := hclean root m h1
  have hrefs : (refsOf fixed).map shown = (refsOf root).map shown := by
    have hall : ∀ r ∈ refsOf root, CleanReference env r := fun r hr => hc r ((C102_references root r hap).1 hr)
    generalize refsOf root = as at h3 hall
    generalize refsOf fixed = bs at h3
    clear h4
    induction as generalizing bs with
    | nil =>
      cases bs with
      | nil => rfl
      | cons b bs => cases h3
    | cons a as ih =>
      cases bs with
      | nil => cases h3
      | cons b bs =>
        obtain ⟨e1, e2⟩ := List.cons.inj h3
        rw [List.map_cons, List.map_cons, C139_unchanged env a b (hall a List.mem_cons_self) e1,
          ih (fun r hr => hall r (List.mem_cons_of_mem _ hr)) bs e2]
  have hch : changed = [] := by rw [h4]; exact changedOf_same hser _ _ hrefs
  subst hch
  exact ⟨root, m, fixed, added, h1, (shown_of_refs fixed root [] h2).2 hrefs, h5, h6⟩

/-- **C139**, for a file: it is always repaired, if its DOI annotations are apart. -/
theorem C139_file_total (env : JatsEnv) (hcc : DigitsPlain env.cc) (h10 : ∀ c ∈ c!"10.", env.cc.isSpace c = false)
    (ht : TruncatesAtGap env.toJatsTextEnv) (hlow : ∀ k ∈ knownPubIdTypes, env.lower k = k) (parse : Str → Except Nat JNode) (ser : JNode → Str)
    (hser : ∀ a b, shown a = shown b → ser a = ser b) (now data : Str) (hfix : FixableFile env parse data)
    (hclean : ∀ root malformed, ReadAs parse data root malformed → RefsApart root ∧ ∀ r, IsRef root r → CleanReference env r) :
    ∃ out root malformed fixed added, fixJatsFile env parse ser now data = .ok out ∧
      ReadAs parse data root malformed ∧ shown fixed = shown root ∧ MetaAdded fixed out added ∧
      MetaPairs added [
        (c!"fix-jats-note", c!"This XML file had been modified to fix some of the potential errors."),
        (c!"fix-jats-run-timestamp", now),
        (c!"fix-jats-malformatted-xml", if malformed then c!"true" else c!"false"),
        (c!"fix-jats-changed-reference-count", c!"0"),
        (c!"fix-jats-changed-reference-ids", [])] := by
  obtain ⟨out, hout⟩ := C138_file env hcc h10 ht hlow parse ser now data hfix
  obtain ⟨root, m, fixed, added, h1, h2, h3, h4⟩ := C139_file env parse ser hser now data out hclean hout
  exact ⟨out, root, m, fixed, added, hout, h1, h2, h3, h4⟩

/-! ### Examples -/

/-- A reference with a title and a DOI. -/
def cleanExample : JNode := jRef (some c!"A. ")
  [jEl 2 c!"article-title" (some c!"A b ") [jEl 3 c!"italic" (some c!"c") [] none] (some c!". "), jPubId 4 c!"doi" (some c!"10.1234/a") [] none]

/-- A check of the conditions for one list of children. -/
def cleanCheck (env : JatsEnv) (p : Str) : List JNode → Bool
  | [] => true
  | e :: r =>
    (e.tag != c!"pub-id" || (match e.attrs.get? c!"pub-id-type" with | none => true | some t => env.lower t = t)) &&
    (e.tag != c!"article-title" || (decide (env.titleSpan (orEmpty e.text) = none) &&
      (match (jText e).head? with | none => true | some c => decide (c ∉ ['"', '‘', '“'])) &&
      (match (jText e).getLast? with | none => true | some c => decide (c ≠ ',' ∧ c ≠ ' ')))) &&
    (!isPubId c!"doi" e || ((match findDoi env.toJatsTextEnv (orEmpty e.text) with
      | .ok o => decide (o = some (0, (orEmpty e.text).length)) | .error _ => false) && decide (env.doiUrlPrefix p = none))) &&
    (!isPubId c!"pii" e && !isPubId c!"pmid" e && !isPubId c!"pmcid" e && e.tag != c!"ext-link") &&
    cleanCheck env (orEmpty e.tail) r

theorem cleanCheck_sound {env : JatsEnv} (cs : List JNode) : ∀ p, cleanCheck env p cs = true → ∀ l e r q, cs = l ++ e :: r →
    (l = [] ∧ q = p ∨ ∃ l' s, l = l' ++ [s] ∧ q = orEmpty s.tail) → CleanElement env q e := by
  induction cs with
  | nil => intro p _ l e r q h; cases l <;> cases h
  | cons x cs ih =>
    intro p h l e r q hcs hq
    unfold cleanCheck at h
    simp only [Bool.and_eq_true] at h
    obtain ⟨⟨⟨⟨h1, h2⟩, h3⟩, ⟨⟨h4, h5⟩, h6⟩, h7⟩, h8⟩ := h
    cases l with
    | nil =>
      obtain ⟨rfl, rfl⟩ := List.cons.inj hcs
      obtain rfl : q = p := by
        rcases hq with ⟨_, h⟩ | ⟨l', s, h, _⟩
        · exact h
        · cases l' <;> cases h
      have no : ∀ {T : Str} {P : Prop}, (!isPubId T x) = true → isPubId T x = true → P := by
        intro T P a b; rw [b] at a; cases a
      have nolink : ∀ {P : Prop}, x.tag = c!"ext-link" → P := by
        intro P e; rw [e] at h7; exact absurd h7 (by decide)
      have htitle : x.tag = c!"article-title" → env.titleSpan (orEmpty x.text) = none ∧
          (∀ c s, jText x = c :: s → c ∉ ['"', '‘', '“']) ∧ (∀ c s, jText x = s ++ [c] → c ≠ ',' ∧ c ≠ ' ') := by
        intro e
        rw [e] at h2
        simp only [bne_self_eq_false, Bool.false_or, Bool.and_eq_true] at h2
        refine ⟨of_decide_eq_true h2.1.1, fun c s hc => ?_, fun c s hc => ?_⟩
        · have := h2.1.2
          rw [hc] at this
          exact of_decide_eq_true this
        · have := h2.2
          rw [hc, List.getLast?_concat] at this
          exact of_decide_eq_true this
      have hdoi : isPubId c!"doi" x = true → WholeText (findDoi env.toJatsTextEnv) (orEmpty x.text) ∧ env.doiUrlPrefix q = none := by
        intro e
        rw [e] at h3
        simp only [Bool.not_true, Bool.false_or, Bool.and_eq_true] at h3
        refine ⟨?_, of_decide_eq_true h3.2⟩
        have := h3.1
        unfold WholeText
        split at this
        · next o ho => rw [ho, of_decide_eq_true this]
        · cases this
      refine ⟨fun e type ht _ => ?_, fun e => .inl (htitle e).1, fun e => (htitle e).2.1, fun e => (htitle e).2.2, fun e => (hdoi e).1, no h4, no h5, no h6,
        fun e => (hdoi e).2, nolink, nolink, nolink⟩
      rw [e, ht] at h1
      exact of_decide_eq_true h1
    | cons y l =>
      obtain ⟨rfl, rfl⟩ := List.cons.inj hcs
      refine ih (orEmpty x.tail) h8 l e r q rfl ?_
      rcases hq with ⟨h, _⟩ | ⟨l', s, h, hs⟩
      · cases h
      · cases l' with
        | nil =>
          obtain ⟨rfl, rfl⟩ := List.cons.inj h
          exact .inl ⟨rfl, hs⟩
        | cons z l' =>
          obtain ⟨rfl, rfl⟩ := List.cons.inj h
          exact .inr ⟨l', s, rfl, hs⟩

theorem cleanExample_clean : CleanReference jatsFixExampleEnv cleanExample := by
  refine ⟨by decide +kernel, fun m hm l e r p hc hp => ?_, ?_⟩
  · have : ∀ m ∈ jAll cleanExample, cleanCheck jatsFixExampleEnv (orEmpty m.text) m.children = true := by
      rw [← List.all_eq_true (p := fun m : JNode => cleanCheck jatsFixExampleEnv (orEmpty m.text) m.children)]
      decide +kernel
    exact cleanCheck_sound m.children _ (this m hm) l e r p hc hp
  · have hdoi : ¬ ∀ e ∈ jAlls cleanExample.children, isPubId c!"doi" e = false := by
      intro h
      have := h (jPubId 4 c!"doi" (some c!"10.1234/a") [] none) (by
        show _ ∈ [_, _, _, _]
        simp only [List.mem_cons]
        exact .inr (.inr (.inr (.inl rfl))))
      exact absurd this (by decide +kernel)
    have hpmid : ∀ e ∈ jAlls cleanExample.children, e.tag = c!"mixed-citation" → NotIn (fun s => .ok (jatsFixExampleEnv.pmid s)) true e := by
      have he : ∀ e ∈ jAlls cleanExample.children, (∀ s ∈ orEmpty e.text :: e.children.flatMap (fun c => [orEmpty c.tail, orEmpty c.text]),
          jatsFixExampleEnv.pmid s = none) := by
        have : (jAlls cleanExample.children).all (fun e => (orEmpty e.text :: e.children.flatMap (fun c => [orEmpty c.tail, orEmpty c.text])).all
          (fun s => jatsFixExampleEnv.pmid s = none)) = true := by decide +kernel
        intro e he s hs
        exact of_decide_eq_true (List.all_eq_true.1 (List.all_eq_true.1 this e he) s hs)
      intro e hm _
      refine ⟨fun _ => congrArg Except.ok (he e hm _ (by simp)), fun c hc _ => congrArg Except.ok (he e hm _ ?_),
        fun _ c hc _ _ => congrArg Except.ok (he e hm _ ?_)⟩
      · exact List.mem_cons_of_mem _ (List.mem_flatMap.2 ⟨c, hc, by simp⟩)
      · exact List.mem_cons_of_mem _ (List.mem_flatMap.2 ⟨c, hc, by simp⟩)
    have triv : ∀ (b : Bool) (e : JNode), NotIn (fun _ => .ok none) b e := fun b e => ⟨fun _ => rfl, fun _ _ _ => rfl, fun _ _ _ _ _ => rfl⟩
    exact ⟨fun _ => hpmid, fun _ e _ _ => triv true e, fun _ e _ _ => triv false e, fun _ e _ _ => triv false e, fun e _ _ => triv true e,
      fun h => absurd h hdoi⟩

/-- Not vacuous: the reference can be repaired. -/
example : ∃ n', fixReference jatsFixExampleEnv cleanExample = .ok n' ∧
    (jAll n').map (fun e => (orEmpty e.text, orEmpty e.tail)) = (jAll cleanExample).map (fun e => (orEmpty e.text, orEmpty e.tail)) :=
  exists_of_okAnd (by decide +kernel)

/-- The parameters of the examples, with numbers of the Web of Science. -/
def wosExampleEnv : JatsEnv := { jatsFixExampleEnv with
  wos := fun s => if s = c!"WOS:000000000000001, WOS:000000000000002" then some (4, 19) else if s = c!", WOS:000000000000002" then some (6, 21) else none }

/-- What a repaired reference is not: one in which there is nothing to fix.  Of two numbers in a text one is annotated in the first run, and
the other one if the result is repaired again. -/
theorem C139_again : ∃ n' n'', fixReference wosExampleEnv (jRef (some c!"WOS:000000000000001, WOS:000000000000002") []) = .ok n' ∧ fixReference wosExampleEnv n' = .ok n'' ∧
    (jAll n').map (fun e => (e.tag, orEmpty e.text, orEmpty e.tail)) =
      [(c!"ref", [], []), (c!"mixed-citation", c!"WOS:", []), (c!"pub-id", c!"000000000000001", c!", WOS:000000000000002")] ∧
    (jAll n'').map (fun e => (e.tag, orEmpty e.text, orEmpty e.tail)) =
      [(c!"ref", [], []), (c!"mixed-citation", c!"WOS:", []), (c!"pub-id", c!"000000000000001", c!", WOS:"), (c!"pub-id", c!"000000000000002", [])] := by
  obtain ⟨n', e1, e2, e3⟩ := exists_of_okAnd
    (p := fun n' => okAnd (fixReference wosExampleEnv n') (fun n'' => (jAll n'').map (fun e => (e.tag, orEmpty e.text, orEmpty e.tail)) =
        [(c!"ref", [], []), (c!"mixed-citation", c!"WOS:", []), (c!"pub-id", c!"000000000000001", c!", WOS:"), (c!"pub-id", c!"000000000000002", [])]) = true ∧
      (jAll n').map (fun e => (e.tag, orEmpty e.text, orEmpty e.tail)) =
        [(c!"ref", [], []), (c!"mixed-citation", c!"WOS:", []), (c!"pub-id", c!"000000000000001", c!", WOS:000000000000002")])
    (x := fixReference wosExampleEnv (jRef (some c!"WOS:000000000000001, WOS:000000000000002") [])) (by decide +kernel)
  obtain ⟨n'', g1, g2⟩ := exists_of_okAnd e2
  exact ⟨n', n'', e1, g1, e3, g2⟩

end Verif
