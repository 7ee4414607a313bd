/-
C146: the value of a sub annotation can be read back from the file written.
-/
import Verif.Spec.SubReadBack
import Verif.Lemmas.SubReadBack
import Verif.Props.SubPlaceRef
import Verif.Props.ReadBack
import Verif.Props.ReloadSub

namespace Verif
open Spec

theorem fullTag_of_tag {t : Tok} {v : Str} (hv : v ≠ []) (h : tagValue (t.attrib.get? c!"tag") = some v) :
    fullTag t = t.attrib.get? c!"tag" := by
  unfold fullTag
  generalize t.attrib.get? c!"tag" = x at h
  match x with
  | none => cases h
  | some [] => exact absurd (Option.some.inj h).symm hv
  | some (c :: s) => rfl

theorem fullSubTag_of_tag {t : Tok} {v : Str} (hv : v ≠ []) (h : tagValue (t.attrib.get? c!"level2_tag") = some v) :
    fullSubTag t = t.attrib.get? c!"level2_tag" ∧ fullSubTag t ≠ none ∧ fullSubTag t ≠ some [] := by
  unfold fullSubTag
  generalize t.attrib.get? c!"level2_tag" = x at h
  match x with
  | none => cases h
  | some [] => exact absurd (Option.some.inj h).symm hv
  | some (c :: s) => exact ⟨rfl, by simp [firstNonEmpty], by simp [firstNonEmpty]⟩

/-- Where text with the labels is written to. -/
theorem tokenPath_labels {mapping : Dict Str} {main sub : Str} (he : SubElement mapping main sub) (hm : main ≠ []) (hs : sub ≠ [])
    {t : Tok} (h1 : tagValue (t.attrib.get? c!"tag") = some main) (h2 : tagValue (t.attrib.get? c!"level2_tag") = some sub) :
    tokenPath mapping t = tagRequiredPath mapping (some sub) ∧
      (mainPath mapping t).length < (tagRequiredPath mapping (some sub)).length := by
  have e1 : mainPath mapping t = tagRequiredPath mapping (some main) := by
    unfold mainPath
    rw [show (splitTagPrefix (fullTag t)).2 = tagValue (fullTag t) from stripTagPrefix_eq_tagValue _, fullTag_of_tag hm h1, h1]
  obtain ⟨f1, f2, f3⟩ := fullSubTag_of_tag hs h2
  have e2 : subPath mapping t = tagRequiredPath mapping (some sub) := by
    unfold subPath
    rw [show (splitTagPrefix (fullSubTag t)).2 = tagValue (fullSubTag t) from stripTagPrefix_eq_tagValue _, f1, h2]
  have hsub : hasSub mapping t := ⟨f2, f3, by rw [e1, e2]; exact he.1⟩
  refine ⟨by unfold tokenPath; rw [if_pos hsub, e2], by rw [e1]; exact he.2.1⟩

/-- In a document made of texts, white space is what has no text. -/
theorem bare_blank (cc : CharClass) (lines : List (List Str)) (i : Nat) :
    ((Doc.ofLines (lines.map (bareLine cc))).tok i).isSpace = true →
      blank cc ((Doc.ofLines (lines.map (bareLine cc))).tok i) = true := by
  intro hsp
  unfold blank
  rcases ofLines_tok (lines.map (bareLine cc)) i with h | h
  · have := (bareLines_mem h).1
    rw [hsp] at this
    rw [List.all_eq_true]
    intro c hc
    have h0 := nonSpace_strip cc ((Doc.ofLines (lines.map (bareLine cc))).tok i).text
    rw [List.isEmpty_iff.1 this.symm] at h0
    have h0 : nonSpace cc _ = [] := h0.symm
    unfold nonSpace at h0
    rw [List.filter_eq_nil_iff] at h0
    simpa using h0 c hc
  · rw [h]; rfl

theorem strip_of_blank {cc : CharClass} {s : Str} (h : s.all cc.isSpace = true) : strip cc s = [] := by
  induction s with
  | nil => rfl
  | cons c s ih =>
    rw [List.all_cons, Bool.and_eq_true] at h
    rw [strip_cons_space cc c s h.1]
    exact ih h.2

theorem bare_not_blank (cc : CharClass) (lines : List (List Str)) (i : Nat)
    (hi : i ∈ (Doc.ofLines (lines.map (bareLine cc))).nonSpaceTokens) :
    ((Doc.ofLines (lines.map (bareLine cc))).tok i).isSpace = false ∧
      blank cc ((Doc.ofLines (lines.map (bareLine cc))).tok i) = false := by
  rw [nonSpaceTokens_ofLines] at hi
  obtain ⟨h1, h2⟩ := List.mem_filter.1 hi
  have hsp : ((Doc.ofLines (lines.map (bareLine cc))).tok i).isSpace = false := by simpa using h2
  refine ⟨hsp, ?_⟩
  have hm : (Doc.ofLines (lines.map (bareLine cc))).tok i ∈ (lines.map (bareLine cc)).flatten := by
    rw [allTokens_ofLines, List.mem_range] at h1
    show (lines.map (bareLine cc)).flatten.getD i _ ∈ _
    rw [List.getD_eq_getElem?_getD, List.getElem?_eq_getElem h1]
    exact List.getElem_mem h1
  have := (bareLines_mem hm).1
  rw [hsp] at this
  cases hb : blank cc ((Doc.ofLines (lines.map (bareLine cc))).tok i) with
  | false => rfl
  | true =>
    exfalso
    rw [strip_of_blank hb] at this
    cases this

theorem gap_lower {f : Char → Char} (hf : f ' ' = ' ' ∧ f '\t' = '\t' ∧ f '\n' = '\n') {g : Str} (h : noSpace g = []) :
    noSpace (g.map f) = [] := by
  unfold noSpace at h ⊢
  rw [List.filter_eq_nil_iff] at h ⊢
  intro c hc
  obtain ⟨b, hb, rfl⟩ := List.mem_map.1 hc
  have := h b hb
  simp only [Bool.not_eq_true', Bool.not_eq_false, Bool.or_eq_true, beq_iff_eq] at this ⊢
  rcases this with (rfl | rfl) | rfl
  · exact .inl (.inl hf.1)
  · exact .inl (.inr hf.2.1)
  · exact .inr hf.2.2

theorem infix_filter_of_all {α : Type} {p : α → Bool} {w l : List α} (h : w <:+: l) (hw : ∀ x ∈ w, p x = true) : w <:+: l.filter p := by
  have := h.filter p
  rwa [List.filter_eq_self.2 hw] at this

/-- The tokens which overlap an occurrence of a value spell it. -/
theorem overlapping_spell {lower : Str → Str} {f : Char → Char} (hlow : ∀ s, lower s = s.map f)
    (hf : f ' ' = ' ' ∧ f '\t' = '\t' ∧ f '\n' = '\n') {text value : Str} {gaps : List Str} {ranges : List (Nat × Nat)}
    (ts : List Nat) (txt : Nat → Str) (h : LaidOut text (ts.map txt) gaps ranges) (hg : ∀ g ∈ gaps, noSpace g = [])
    {r : Nat × Nat} (h1 : r.1 < r.2) (h3 : noSpace (lower (slice text r.1 (r.2 - r.1))) = noSpace (lower value)) :
    noSpace (lower value) <:+:
      noSpace (lower ((((ts.zip ranges).filter (fun x => overlaps r.1 r.2 x.2)).map Prod.fst).map txt).flatten) := by
  have hl := laidFrom_zero (laidOut_map f h)
  obtain ⟨m, n, c1, c2⟩ := covers_from _ r.1 r.2 h1 _ _ _ 0 hl (by
    intro g hg'
    obtain ⟨g0, hg0, rfl⟩ := List.mem_map.1 hg'
    exact gap_lower hf (hg g0 hg0)) (Nat.zero_le _)
  have e1 : slice (text.map f) r.1 (r.2 - r.1) = lower (slice text r.1 (r.2 - r.1)) := by rw [hlow, slice_map]
  rw [e1, h3] at c2
  refine c2.trans ?_
  have hw : ((ts.zip ranges).drop m).take n <:+: (ts.zip ranges).filter (fun x => overlaps r.1 r.2 x.2) := by
    refine infix_filter_of_all ((List.take_prefix _ _).isInfix.trans (List.drop_suffix _ _).isInfix) ?_
    intro x hx
    apply c1
    have hx2 : x.2 ∈ (((ts.zip ranges).drop m).take n).map Prod.snd := List.mem_map.2 ⟨x, hx, rfl⟩
    rw [List.map_take, List.map_drop, List.map_snd_zip (by rw [h.length, List.length_map]; omega)] at hx2
    exact hx2
  have hw2 := (hw.map Prod.fst).map txt
  have e2 : ((((ts.zip ranges).drop m).take n).map Prod.fst).map txt = ((ts.map txt).drop m).take n := by
    rw [List.map_take, List.map_drop, List.map_fst_zip (by rw [h.length, List.length_map]; omega), List.map_take, List.map_drop]
  rw [e2] at hw2
  obtain ⟨p, q, e3⟩ := hw2
  rw [← e3, hlow]
  refine ⟨noSpace (p.flatten.map f), noSpace (q.flatten.map f), ?_⟩
  rw [← noSpace_app, ← noSpace_app]
  congr 1
  rw [List.flatten_append, List.flatten_append, List.map_append, List.map_append]
  congr 2
  rw [← List.map_drop, ← List.map_take, List.map_flatten]

theorem nodup_split {α : Type} {i : α} : ∀ {a b c e : List α}, (a ++ i :: b).Nodup → a ++ i :: b = c ++ i :: e → a = c ∧ b = e
  | [], _, [], _, _, h => ⟨rfl, (List.cons.inj h).2⟩
  | [], b, x :: c, e, hn, h => by
    rw [List.nil_append, List.cons_append] at h
    obtain ⟨h1, h2⟩ := List.cons.inj h
    rw [List.nil_append, List.nodup_cons, h2] at hn
    exact absurd (by simp) hn.1
  | x :: a, b, [], e, hn, h => by
    rw [List.nil_append, List.cons_append] at h
    obtain ⟨h1, h2⟩ := List.cons.inj h
    rw [List.cons_append, List.nodup_cons, h1] at hn
    exact absurd (by simp) hn.1
  | x :: a, b, y :: c, e, hn, h => by
    rw [List.cons_append, List.cons_append] at h
    obtain ⟨h1, h2⟩ := List.cons.inj h
    rw [List.cons_append, List.nodup_cons] at hn
    obtain ⟨r1, r2⟩ := nodup_split hn.2 h2
    exact ⟨by rw [h1, r1], r2⟩

/-- Neighbours the first of which is in a part of a list: some are neighbours in it, the others are behind it. -/
theorem infix_first_part {α : Type} {p l q : List α} {i : α} {is : List α} (hn : (p ++ l ++ q).Nodup) (h : i :: is <:+: p ++ l ++ q)
    (hi : i ∈ l) : ∃ first rest, i :: is = first ++ rest ∧ first ≠ [] ∧ first <:+: l ∧ ∀ j ∈ rest, j ∈ q := by
  obtain ⟨a, b, e⟩ := h
  obtain ⟨l1, l2, rfl⟩ := List.append_of_mem hi
  have e' : a ++ i :: (is ++ b) = (p ++ l1) ++ i :: (l2 ++ q) := by
    have := e
    simp only [List.append_assoc, List.cons_append] at this ⊢
    exact this
  have hn' : (a ++ i :: (is ++ b)).Nodup := by
    rw [e']
    simpa only [List.append_assoc, List.cons_append] using hn
  obtain ⟨_, h2⟩ := nodup_split hn' e'
  rcases List.append_eq_append_iff.1 h2 with ⟨k, rfl, _⟩ | ⟨k, rfl, hq⟩
  · exact ⟨i :: is, [], (List.append_nil _).symm, by simp, ⟨l1, k, by simp⟩, fun _ hj => nomatch hj⟩
  · exact ⟨i :: l2, k, by simp, by simp, ⟨l1, [], by simp⟩, fun j hj => by rw [hq]; exact List.mem_append_left _ hj⟩

/-- Text with a main label and a sub label on one line is read back. -/
theorem subReadBack_line {env : ToolEnv} {a : ToolArgs} {t : Tool} (hr : ¬ Spec.removesText t)
    {cfg : DocCfg} {mains : List (Option Str)} {root c root' : Elem} (hcc : env.simple.cc = cfg.cc)
    {mainName name : Str} (hxn : mainName ≠ []) (hname : name ≠ [] ∧ tagValue (some name) = some name)
    (hm : ReadableMapping cfg.mapping mains) (hread : Spec.readableLabels a t cfg.mapping mains)
    (hel : SubElement cfg.mapping mainName name)
    (hk : Spec.noneKept a t cfg root) (hc : findAll cfg.containerPath root = [c])
    {d0 d' d'' : Doc} (h0 : loadDoc { cfg with preserveTags := true } root = .ok d0)
    (h1 : annotateAll (t.annotators env a) (beforeAnnotator (t.annotateCfg a) d0) = .ok d') (h2 : docRoot cfg root d' = .ok root')
    (e1 : loadDoc { cfg with preserveTags := true } root' = .ok d'')
    {l : Line} (hl : l ∈ (beforeAnnotator (t.annotateCfg a) d0).lines) {sel : List Nat} (hsl : sel <:+: l.nonSpace)
    (hlab : ∀ i ∈ sel, tagValue (d'.getTag i) = some mainName ∧ tagValue (d'.getSubTag i) = some name)
    (hbegin : ∀ i is, sel = i :: is → d'.getSubTag i = some (c!"b-" ++ name)) :
    (sel.map (fun i => (beforeAnnotator (t.annotateCfg a) d0).getText env.simple.cc i)).flatMap
      (fun s => (s.filter (fun c => !cfg.cc.isSpace c)).map (fun c => (c, some name))) <:+: subText cfg.cc d'' := by
  have hdist := readable_distinct (cc := cfg.cc) hm d'.lineToks.flatten (run_readable hk hread h0 h1)
  obtain ⟨d3, e1', e2⟩ := C125_exact { cfg with preserveTags := true } root c root' d' rfl hc h2 hdist
  rw [e1] at e1'
  obtain rfl := Except.ok.inj e1'
  let d := beforeAnnotator (t.annotateCfg a) d0
  have hbare : d = Doc.ofLines ((tokenTexts d0).map (bareLine cfg.cc)) := before_noneKept hk h0
  have hs : SameBut d d' := keeps_annotateAll _ (tool_keeps env a t hr) _ _ h1
  change l ∈ d.lines at hl
  have hselN : sel <:+: d.nonSpaceTokens := by
    refine hsl.trans ?_
    obtain ⟨pre, post, e⟩ := List.append_of_mem hl
    unfold Doc.nonSpaceTokens
    rw [e, List.flatMap_append, List.flatMap_cons]
    exact ⟨_, _, List.append_assoc _ _ _⟩
  have hlf : l.nonSpace = l.tokens.filter (fun i => !(d.tok i).isSpace) := by
    change l ∈ d.lines at hl
    rw [hbare] at hl ⊢
    obtain ⟨k, _, rfl⟩ := List.mem_map.1 hl
    rfl
  have hns : ∀ i ∈ d.nonSpaceTokens, (d.tok i).isSpace = false ∧ blank cfg.cc (d.tok i) = false := by
    intro i hi
    rw [hbare] at hi ⊢
    exact bare_not_blank _ _ i hi
  rw [hlf] at hsl
  obtain ⟨la, mid, lb, e3, e4⟩ := infix_of_filter hsl
  have hmid : ∀ i ∈ mid, blank cfg.cc (d'.tok i) = false → i ∈ sel := by
    intro i hi hb
    rw [← e4]
    refine List.mem_filter.2 ⟨hi, ?_⟩
    cases hsp : (d.tok i).isSpace with
    | false => rfl
    | true =>
      exfalso
      have := bare_blank cfg.cc (tokenTexts d0) i
      rw [← hbare] at this
      have := this hsp
      unfold blank at this hb
      rw [hs.text, this] at hb
      cases hb
  have hfil : (mid.map d'.tok).filter (fun t => !blank cfg.cc t) = sel.map d'.tok := by
    rw [List.filter_map, ← e4]
    congr 1
    refine List.filter_congr fun i hi => ?_
    show (!blank cfg.cc (d'.tok i)) = !(d.tok i).isSpace
    cases hb : blank cfg.cc (d'.tok i) with
    | false =>
      rw [(hns i (hselN.subset (hmid i hi hb))).1]
    | true =>
      cases hsp : (d.tok i).isSpace with
      | true => rfl
      | false =>
        exfalso
        have : i ∈ sel := by
          rw [← e4]
          exact List.mem_filter.2 ⟨hi, by rw [hsp]; rfl⟩
        have := (hns i (hselN.subset this)).2
        unfold blank at this hb
        rw [hs.text, this] at hb
        cases hb
  have hrun := subsReadBack_infix cfg.cc cfg.mapping (tagRequiredPath cfg.mapping (some name)) d'.lineToks (la.map d'.tok)
    (mid.map d'.tok) (lb.map d'.tok) (by
      rw [← List.map_append, ← List.map_append, ← e3]
      unfold Doc.lineToks
      rw [hs.lines]
      exact List.mem_map.2 ⟨l, hl, rfl⟩) (by
      intro u hu hb
      obtain ⟨i, hi, rfl⟩ := List.mem_map.1 hu
      obtain ⟨g1, g2⟩ := hlab i (hmid i hi hb)
      exact tokenPath_labels hel hxn hname.1 g1 g2) (by
      intro u hu
      rw [hfil] at hu
      cases sel with
      | nil => cases hu
      | cons i is =>
        cases hu
        have g := hbegin i is rfl
        have g2 := (fullSubTag_of_tag hname.1 (hlab i List.mem_cons_self).2).1
        unfold beginsSub
        rw [g2]
        have g' : (d'.tok i).attrib.get? c!"level2_tag" = some (c!"b-" ++ name) := g
        rw [g']
        rfl)
  show (sel.map (fun i => d.getText env.simple.cc i)).flatMap _ <:+: _
  have hrun2 := hrun.map (fun x => (x.1, x.2.bind (subName cfg.mapping)))
  have e2' : subText cfg.cc d'' = (subsReadBack cfg.cc cfg.mapping [] none [] (withBreaks d'.lineToks)).map
        (fun x => (x.1, x.2.bind (subName cfg.mapping))) := e2
  rw [← e2'] at hrun2
  refine cast ?_ hrun2
  congr 1
  have hname2 : subName cfg.mapping (joinWith c!"/" (tagRequiredPath cfg.mapping (some name))) = some name := hel.2.2
  have hone : ∀ (k : List Nat), (k.map d'.tok).flatMap (fun t => ((t.text.filter (fun c => !cfg.cc.isSpace c)).map
      (fun c => (c, some (joinWith c!"/" (tagRequiredPath cfg.mapping (some name)))))).map
        (fun x : Char × Option Str => (x.1, x.2.bind (subName cfg.mapping)))) =
      (k.map (fun i => d.getText env.simple.cc i)).flatMap
        (fun s => (s.filter (fun c => !cfg.cc.isSpace c)).map (fun c => (c, some name))) := by
    intro k
    rw [List.flatMap_map, List.flatMap_map]
    congr 1
    funext i
    rw [List.map_map, hs.text, hcc]
    show (nonSpace cfg.cc (d.tok i).text).map _ = (nonSpace cfg.cc (strip cfg.cc (d.tok i).text)).map _
    rw [nonSpace_strip]
    congr 1
    funext c
    show (c, (some _).bind _) = _
    rw [Option.bind_some, hname2]
  rw [List.map_flatMap, hone, ← e4]
  clear hrun hrun2 hmid hfil e3 e4
  induction mid with
  | nil => rfl
  | cons i k ih =>
    rw [List.map_cons, List.flatMap_cons, ih, List.filter_cons]
    cases hsp : (d.tok i).isSpace with
    | false => rfl
    | true =>
      have hb := bare_blank cfg.cc (tokenTexts d0) i
      rw [← hbare] at hb
      have h3 : (d.getText env.simple.cc i).filter (fun c => !cfg.cc.isSpace c) = [] := by
        rw [hcc]
        show (strip cfg.cc (d.tok i).text).filter _ = []
        rw [strip_of_blank (hb hsp)]
        rfl
      rw [h3]
      rfl

/-- The value of a sub annotation on one line is read back. -/
theorem subReadBack_placed {env : ToolEnv} {a : ToolArgs} {t : Tool} (hr : ¬ Spec.removesText t)
    {cfg : DocCfg} {mains : List (Option Str)} {root c root' : Elem} (hcc : env.simple.cc = cfg.cc)
    {f : Char → Char} (hlow : ∀ s, env.simple.lower s = s.map f) (hf : f ' ' = ' ' ∧ f '\t' = '\t' ∧ f '\n' = '\n')
    {mainName name w v : Str} (hxn : mainName ≠ []) (hname : name ≠ [] ∧ tagValue (some name) = some name)
    (hm : ReadableMapping cfg.mapping mains) (hread : Spec.readableLabels a t cfg.mapping mains)
    (hel : SubElement cfg.mapping mainName name)
    (hk : Spec.noneKept a t cfg root) (hc : findAll cfg.containerPath root = [c])
    {d0 d' d'' : Doc} (h0 : loadDoc { cfg with preserveTags := true } root = .ok d0)
    (h1 : annotateAll (t.annotators env a) (beforeAnnotator (t.annotateCfg a) d0) = .ok d') (h2 : docRoot cfg root d' = .ok root')
    (e1 : loadDoc { cfg with preserveTags := true } root' = .ok d'') (hcs : CommonSpace cfg.cc (tokenTexts d0)) {tokens : List Nat}
    (htk0 : OccurrenceTokens env.simple (beforeAnnotator (t.annotateCfg a) d0)
      (firstLines (beforeAnnotator (t.annotateCfg a) d0) a.lookahead) (normaliseStr env.simple.lower v) tokens)
    (hone : ValueOnOneLine env.simple (beforeAnnotator (t.annotateCfg a) d0) tokens w)
    (hlb : SubLabelledAt env.simple (beforeAnnotator (t.annotateCfg a) d0) d' tokens w name true)
    (hmain : ∀ i ∈ tokens, tagValue (d'.getTag i) = some mainName) : SubReadBack cfg.cc env.simple.lower d'' w name := by
  let d := beforeAnnotator (t.annotateCfg a) d0
  let lines := firstLines d a.lookahead
  have hbare : d = Doc.ofLines ((tokenTexts d0).map (bareLine cfg.cc)) := before_noneKept hk h0
  have hnd : d.nonSpaceTokens.Nodup := (nodup_loadDoc h0 (Props.C14_aux_sameBut _ _)).2
  obtain ⟨ranges, r, b1, b2, b3, b4, b5, b6⟩ := hlb
  have htk : OccurrenceTokens env.simple d lines _ tokens := htk0
  change MatchPlaces env.simple.cc d tokens ranges at b1
  have hplace : OccurrenceAt (env.simple.lower (matchText env.simple.cc d tokens)) (env.simple.lower w) r := by
    refine ⟨b2, ?_, ?_⟩
    · rw [hlow, List.length_map]; exact b3
    · have b4' := b4
      rw [hlow] at b4'
      rw [hlow (matchText _ _ _), slice_map]
      exact b4'
  obtain ⟨l, hl, hline⟩ := hone ranges r b1 hplace
  -- the tokens of the occurrence are neighbours on the line
  have hselN : ((tokens.zip ranges).filter (fun x => overlaps r.1 r.2 x.2)).map Prod.fst <:+: d.nonSpaceTokens := by
    refine (infix_filter_zip (by rw [b1.length, List.length_map]) (overlapping_infix b1 tokens _ _)).trans ?_
    obtain ⟨rg, q, lo, _, e⟩ := htk
    rw [e]
    refine (infix_filter_zip (by rw [lo.length, List.length_map]) (overlapping_infix lo _ _ _)).trans ?_
    show (firstLines d a.lookahead).flatten <:+: _
    rw [hbare]
    exact (firstLines_bare _ _ _).isInfix
  have hspell := overlapping_spell (value := w) hlow hf tokens (fun i => d.getText env.simple.cc i) b1
    (by rw [hbare]; exact gaps_bare hcs _) b2 b4
  have hlab : ∀ i ∈ ((tokens.zip ranges).filter (fun x => overlaps r.1 r.2 x.2)).map Prod.fst,
      tagValue (d'.getTag i) = some mainName ∧ tagValue (d'.getSubTag i) = some name ∧ i ∈ l.tokens := by
    intro i hi
    obtain ⟨y, hy, rfl⟩ := List.mem_map.1 hi
    obtain ⟨hy1, hy2⟩ := List.mem_filter.1 hy
    exact ⟨hmain _ (List.of_mem_zip hy1).1, b5 y hy1 hy2, hline y hy1 hy2⟩
  have hbegin : ∀ i is, ((tokens.zip ranges).filter (fun x => overlaps r.1 r.2 x.2)).map Prod.fst = i :: is →
      d'.getSubTag i = some (c!"b-" ++ name) := by
    intro i is hi
    obtain ⟨y, ys, e, rfl, _⟩ := List.map_eq_cons_iff.1 hi
    exact b6 y ys e rfl
  generalize hsel : ((tokens.zip ranges).filter (fun x => overlaps r.1 r.2 x.2)).map Prod.fst = sel at hselN hspell hlab hbegin
  have hlf : l.nonSpace = l.tokens.filter (fun i => !(d.tok i).isSpace) := by
    change l ∈ d.lines at hl
    rw [hbare] at hl ⊢
    obtain ⟨k, _, rfl⟩ := List.mem_map.1 hl
    rfl
  have hns : ∀ i ∈ d.nonSpaceTokens, (d.tok i).isSpace = false ∧ blank cfg.cc (d.tok i) = false := by
    intro i hi
    rw [hbare] at hi ⊢
    exact bare_not_blank _ _ i hi
  have hsl : sel <:+: l.nonSpace := by
    obtain ⟨pre, post, e⟩ := List.append_of_mem hl
    have e' : d.nonSpaceTokens = pre.flatMap (·.nonSpace) ++ l.nonSpace ++ post.flatMap (·.nonSpace) := by
      unfold Doc.nonSpaceTokens
      rw [e]
      simp
    have hnd' := hnd
    have hselN' := hselN
    rw [e'] at hnd' hselN'
    refine infix_of_part hnd' hselN' ?_
    intro i hi
    rw [hlf]
    refine List.mem_filter.2 ⟨(hlab i hi).2.2, ?_⟩
    rw [(hns i (hselN.subset hi)).1]
    rfl
  exact ⟨sel.map (fun i => d.getText env.simple.cc i),
    subReadBack_line hr hcc hxn hname hm hread hel hk hc h0 h1 h2 e1 hl hsl (fun i hi => ⟨(hlab i hi).1, (hlab i hi).2.1⟩) hbegin, hspell⟩

/-- What is on the first line of text with a main label and a sub label is read back. -/
theorem subReadBack_first {env : ToolEnv} {a : ToolArgs} {t : Tool} (hr : ¬ Spec.removesText t)
    {cfg : DocCfg} {mains : List (Option Str)} {root c root' : Elem} (hcc : env.simple.cc = cfg.cc)
    {f : Char → Char} (hlow : ∀ s, env.simple.lower s = s.map f) (hf : f ' ' = ' ' ∧ f '\t' = '\t' ∧ f '\n' = '\n')
    {mainName name w v : Str} (hxn : mainName ≠ []) (hname : name ≠ [] ∧ tagValue (some name) = some name)
    (hm : ReadableMapping cfg.mapping mains) (hread : Spec.readableLabels a t cfg.mapping mains)
    (hel : SubElement cfg.mapping mainName name)
    (hk : Spec.noneKept a t cfg root) (hc : findAll cfg.containerPath root = [c])
    {d0 d' d'' : Doc} (h0 : loadDoc { cfg with preserveTags := true } root = .ok d0)
    (h1 : annotateAll (t.annotators env a) (beforeAnnotator (t.annotateCfg a) d0) = .ok d') (h2 : docRoot cfg root d' = .ok root')
    (e1 : loadDoc { cfg with preserveTags := true } root' = .ok d'') (hcs : CommonSpace cfg.cc (tokenTexts d0)) {tokens : List Nat}
    (htk0 : OccurrenceTokens env.simple (beforeAnnotator (t.annotateCfg a) d0)
      (firstLines (beforeAnnotator (t.annotateCfg a) d0) a.lookahead) (normaliseStr env.simple.lower v) tokens)
    (hlb : SubLabelledAt env.simple (beforeAnnotator (t.annotateCfg a) d0) d' tokens w name true)
    (hmain : ∀ i ∈ tokens, tagValue (d'.getTag i) = some mainName) (hw : noSpace (env.simple.lower w) ≠ []) :
    FirstLineReadBack env.simple (beforeAnnotator (t.annotateCfg a) d0) d'' tokens w name := by
  let d := beforeAnnotator (t.annotateCfg a) d0
  let lines := firstLines d a.lookahead
  have hbare : d = Doc.ofLines ((tokenTexts d0).map (bareLine cfg.cc)) := before_noneKept hk h0
  have hnd : d.nonSpaceTokens.Nodup := (nodup_loadDoc h0 (Props.C14_aux_sameBut _ _)).2
  obtain ⟨ranges, r, b1, b2, b3, b4, b5, b6⟩ := hlb
  have htk : OccurrenceTokens env.simple d lines _ tokens := htk0
  change MatchPlaces env.simple.cc d tokens ranges at b1
  have hplace : OccurrenceAt (env.simple.lower (matchText env.simple.cc d tokens)) (env.simple.lower w) r := by
    refine ⟨b2, ?_, ?_⟩
    · rw [hlow, List.length_map]; exact b3
    · have b4' := b4
      rw [hlow] at b4'
      rw [hlow (matchText _ _ _), slice_map]
      exact b4'
  -- the tokens of the occurrence are neighbours on the line
  have hselN : ((tokens.zip ranges).filter (fun x => overlaps r.1 r.2 x.2)).map Prod.fst <:+: d.nonSpaceTokens := by
    refine (infix_filter_zip (by rw [b1.length, List.length_map]) (overlapping_infix b1 tokens _ _)).trans ?_
    obtain ⟨rg, q, lo, _, e⟩ := htk
    rw [e]
    refine (infix_filter_zip (by rw [lo.length, List.length_map]) (overlapping_infix lo _ _ _)).trans ?_
    show (firstLines d a.lookahead).flatten <:+: _
    rw [hbare]
    exact (firstLines_bare _ _ _).isInfix
  have hspell := overlapping_spell (value := w) hlow hf tokens (fun i => d.getText env.simple.cc i) b1
    (by rw [hbare]; exact gaps_bare hcs _) b2 b4
  have hlab : ∀ i ∈ ((tokens.zip ranges).filter (fun x => overlaps r.1 r.2 x.2)).map Prod.fst,
      tagValue (d'.getTag i) = some mainName ∧ tagValue (d'.getSubTag i) = some name := by
    intro i hi
    obtain ⟨y, hy, rfl⟩ := List.mem_map.1 hi
    obtain ⟨hy1, hy2⟩ := List.mem_filter.1 hy
    exact ⟨hmain _ (List.of_mem_zip hy1).1, b5 y hy1 hy2⟩
  have hbegin : ∀ i is, ((tokens.zip ranges).filter (fun x => overlaps r.1 r.2 x.2)).map Prod.fst = i :: is →
      d'.getSubTag i = some (c!"b-" ++ name) := by
    intro i is hi
    obtain ⟨y, ys, e, rfl, _⟩ := List.map_eq_cons_iff.1 hi
    exact b6 y ys e rfl
  refine ⟨ranges, r, b1, hplace, ?_⟩
  generalize hsel : ((tokens.zip ranges).filter (fun x => overlaps r.1 r.2 x.2)).map Prod.fst = sel at hselN hspell hlab hbegin ⊢
  cases sel with
  | nil =>
    rw [List.map_nil, List.flatten_nil, hlow [], List.map_nil] at hspell
    exact absurd (List.infix_nil.1 hspell) hw
  | cons i is =>
    have hi : i ∈ d.nonSpaceTokens := hselN.subset List.mem_cons_self
    obtain ⟨l, hl, hil⟩ := List.mem_flatMap.1 hi
    have hlf : ∀ k ∈ d.lines, k.nonSpace = k.tokens.filter (fun i => !(d.tok i).isSpace) := by
      intro k hk
      rw [hbare] at hk ⊢
      obtain ⟨k, _, rfl⟩ := List.mem_map.1 hk
      rfl
    obtain ⟨pre, post, e⟩ := List.append_of_mem hl
    have e' : d.nonSpaceTokens = pre.flatMap (·.nonSpace) ++ l.nonSpace ++ post.flatMap (·.nonSpace) := by
      unfold Doc.nonSpaceTokens
      rw [e]
      simp
    have hnd' := hnd
    have hselN' := hselN
    rw [e'] at hnd' hselN'
    obtain ⟨first, rest, e5, e6, e7, e8⟩ := infix_first_part hnd' hselN' hil
    rw [e5] at hlab hspell ⊢
    refine ⟨first, rest, rfl, e6, ⟨l, hl, fun j hj => ?_, fun j hj hjl => ?_⟩, hspell, ?_⟩
    · have := e7.subset hj
      rw [hlf l hl] at this
      exact (List.mem_filter.1 this).1
    · have hq := e8 j hj
      have hjn : j ∈ d.nonSpaceTokens := by rw [e']; exact List.mem_append_right _ hq
      have hjs : (d.tok j).isSpace = false := by
        rw [hbare] at hjn ⊢
        exact (bare_not_blank _ _ j hjn).1
      have hj2 : j ∈ l.nonSpace := by
        rw [hlf l hl]
        exact List.mem_filter.2 ⟨hjl, by rw [hjs]; rfl⟩
      exact (List.nodup_append.1 hnd').2.2 j (List.mem_append_right _ hj2) j hq rfl
    · have := subReadBack_line hr hcc hxn hname hm hread hel hk hc h0 h1 h2 e1 hl e7
        (fun j hj => hlab j (List.mem_append_left _ hj)) (by
          intro j js hj
          refine hbegin j (js ++ rest) ?_
          rw [e5, hj]; rfl)
      rw [hcc]
      rw [hcc] at this
      exact this

/-- **C146.** The value of a sub annotation can be read back from the file written: running the tool for figures, tables
or affiliations with segmentation on a file, none of whose labels are to be kept, with a target annotation whose value occurs literally
in the text of its first lines, and a sub annotation whose value occurs literally on one line of it, writes a file which,
when it is loaded, has neighbouring text with the sub label that spells the value of the sub annotation. Missing are
values on more than one line (see `C146_first_line_partial` and `C146_two_lines`). -/
theorem C146_read_back_partial (env : ToolEnv) (a : ToolArgs) (t : Tool)
    (ht : t = .figure true ∨ t = .table true ∨ t = .affiliation true false)
    (cfg : DocCfg) (mains : List (Option Str)) (passes : Doc → Except Err Bool) (root c root' : Elem) (target path : Str)
    (failed : Option Str)
    (he : ExactEnv env.simple (simpleCfg a true true false)) (hcc : env.simple.cc = cfg.cc)
    (f : Char → Char) (hlow : ∀ s, env.simple.lower s = s.map f) (hf : f ' ' = ' ' ∧ f '\t' = '\t' ∧ f '\n' = '\n')
    (x : Target) (after : List Target) (v : Str) (hx : a.targets = x :: after)
    (hn : ∀ y ∈ a.targets, y.name ≠ [] ∧ tagValue (some y.name) = some y.name)
    (hre : truthy ((simpleCfg a true true false).tagConfig x.name).matchPrefixRegex = false)
    (sb sa : List (Str × TargetValue)) (name w : Str) (hsubs : x.subs = sb ++ (name, .one w) :: sa)
    (hname : name ≠ [] ∧ tagValue (some name) = some name)
    (hm : ReadableMapping cfg.mapping mains) (hread : Spec.readableLabels a t cfg.mapping mains)
    (hel : SubElement cfg.mapping x.name name)
    (hk : Spec.noneKept a t cfg root) (hc : findAll cfg.containerPath root = [c])
    (h : t.run env a cfg passes root target failed = .ok (some (path, root'))) :
    ∃ d0 d'', loadDoc { cfg with preserveTags := true } root = .ok d0 ∧
      loadDoc { cfg with preserveTags := true } root' = .ok d'' ∧
      let d := beforeAnnotator (t.annotateCfg a) d0
      let lines := firstLines d a.lookahead
      (CommonSpace cfg.cc (tokenTexts d0) →
        OccursFor env.simple (simpleCfg a true true false) x v (seqsText (matchSeqEnv env.simple) d lines) →
        (∀ tokens, OccurrenceTokens env.simple d lines (normaliseStr env.simple.lower v) tokens →
          OccursWithin (searchEnv env.simple (simpleCfg a true true false) 1) (env.simple.lower (matchText env.simple.cc d tokens)) (env.simple.lower w) ∧
          ValueOnOneLine env.simple d tokens w ∧
          ∀ n w', (n, .one w') ∈ sb → NotTakenBy env.simple (simpleCfg a true true false) d tokens w' w) →
        SubReadBack cfg.cc env.simple.lower d'' w name) := by
  obtain ⟨d0, d', h0, h1, h2, hsub⟩ := C127_tool_partial env a true t
    (ht.imp id (Or.imp id fun e => ⟨false, e⟩)) cfg passes root root' target path failed he f hlow x after v
    hx hre sb sa name w hsubs hname h
  have hdist := readable_distinct (cc := cfg.cc) hm d'.lineToks.flatten (run_readable hk hread h0 h1)
  obtain ⟨d'', e1, e2⟩ := C125_exact { cfg with preserveTags := true } root c root' d' rfl hc h2 hdist
  refine ⟨d0, d'', h0, e1, ?_⟩
  intro d lines hcs ho hocc
  have hxn := (hn x (by rw [hx]; exact List.mem_cons_self)).1
  have hbare : d = Doc.ofLines ((tokenTexts d0).map (bareLine cfg.cc)) := before_noneKept hk h0
  have hr : ¬ Spec.removesText t := by rcases ht with rfl | rfl | rfl <;> first | exact id | exact Bool.false_ne_true
  obtain ⟨tokens, htk, hlb, hmain⟩ := hsub ho (fun tokens htk => ⟨(hocc tokens htk).1, (hocc tokens htk).2.2⟩)
  have hmain := hmain rfl (by intro i; show ProperTag (d.getTag i); rw [hbare]; exact bare_proper _ _ i) hn
  exact subReadBack_placed hr hcc hlow hf hxn hname hm hread hel hk hc h0 h1 h2 e1 hcs htk (hocc tokens htk).2.1 hlb hmain

/-- **C146.** The same for the tool for references, for sub annotations whose label is not merged with others nor extended to the
text before it. -/
theorem C146_references_partial (env : ToolEnv) (a : ToolArgs) (includePrefix : Bool)
    (cfg : DocCfg) (mains : List (Option Str)) (passes : Doc → Except Err Bool) (root c root' : Elem) (target path : Str)
    (failed : Option Str)
    (he : ExactEnv env.simple (simpleCfg a true false false)) (hcc : env.simple.cc = cfg.cc) (hcr : env.ref.cc = cfg.cc)
    (f : Char → Char) (hlow : ∀ s, env.simple.lower s = s.map f) (hf : f ' ' = ' ' ∧ f '\t' = '\t' ∧ f '\n' = '\n')
    (x : Target) (after : List Target) (v : Str) (hx : a.targets = x :: after)
    (hn : ∀ y ∈ a.targets, y.name ≠ [] ∧ tagValue (some y.name) = some y.name)
    (hnames : ∀ y ∈ a.targets, ∀ s ∈ y.subs, s.1 ≠ [] ∧ tagValue (some s.1) = some s.1)
    (hre : truthy ((simpleCfg a true false false).tagConfig x.name).matchPrefixRegex = false)
    (sb sa : List (Str × TargetValue)) (name w : Str) (hsubs : x.subs = sb ++ (name, .one w) :: sa)
    (hetal : name ≠ c!"reference-etal") (hbegins : referenceBegins includePrefix name = true)
    (hm : ReadableMapping cfg.mapping mains) (hread : Spec.readableLabels a (.reference true includePrefix false) cfg.mapping mains)
    (hel : SubElement cfg.mapping x.name name)
    (hk : Spec.noneKept a (.reference true includePrefix false) cfg root) (hc : findAll cfg.containerPath root = [c])
    (h : (Tool.reference true includePrefix false).run env a cfg passes root target failed = .ok (some (path, root'))) :
    ∃ d0 d'', loadDoc { cfg with preserveTags := true } root = .ok d0 ∧
      loadDoc { cfg with preserveTags := true } root' = .ok d'' ∧
      let d := beforeAnnotator ((Tool.reference true includePrefix false).annotateCfg a) d0
      let lines := firstLines d a.lookahead
      (CommonSpace cfg.cc (tokenTexts d0) →
        OccursFor env.simple (simpleCfg a true false false) x v (seqsText (matchSeqEnv env.simple) d lines) →
        (∀ tokens, OccurrenceTokens env.simple d lines (normaliseStr env.simple.lower v) tokens →
          OccursWithin (searchEnv env.simple (simpleCfg a true false false) 1) (env.simple.lower (matchText env.simple.cc d tokens)) (env.simple.lower w) ∧
          ValueOnOneLine env.simple d tokens w ∧
          ∀ n w', (n, .one w') ∈ sb → NotTakenBy env.simple (simpleCfg a true false false) d tokens w' w) →
        SubReadBack cfg.cc env.simple.lower d'' w name) := by
  obtain ⟨d0, d', h0, h1, h2, hsub⟩ := C127_references_partial env a true includePrefix false cfg hcr passes root root' target path failed he f hlow x after v
    hx hre hnames sb sa name w hsubs hetal h
  have hdist := readable_distinct (cc := cfg.cc) hm d'.lineToks.flatten (run_readable hk hread h0 h1)
  obtain ⟨d'', e1, e2⟩ := C125_exact { cfg with preserveTags := true } root c root' d' rfl hc h2 hdist
  refine ⟨d0, d'', h0, e1, ?_⟩
  intro d lines hcs ho hocc
  have hxn := (hn x (by rw [hx]; exact List.mem_cons_self)).1
  have hname := hnames x (by rw [hx]; exact List.mem_cons_self) (name, .one w) (by rw [hsubs]; simp)
  have hbare : d = Doc.ofLines ((tokenTexts d0).map (bareLine cfg.cc)) := before_noneKept hk h0
  obtain ⟨tokens, htk, hlb, hmain⟩ := hsub ho (fun tokens htk => ⟨(hocc tokens htk).1, (hocc tokens htk).2.2⟩)
  have hmain := hmain rfl (by intro i; show ProperTag (d.getTag i); rw [hbare]; exact bare_proper _ _ i) hn
  rw [hbegins, (referenceBegins_spec includePrefix name hbegins).2.2.2] at hlb
  exact subReadBack_placed (t := .reference true includePrefix false) Bool.false_ne_true hcc hlow hf hxn hname hm hread hel hk hc h0 h1 h2 e1 hcs htk (hocc tokens htk).2.1 hlb hmain

/-- **C146.** Of a value on several lines, what is on the first of them is read back: the text of the occurrence on its first line has
the sub label when the file written is loaded again. -/
theorem C146_first_line_partial (env : ToolEnv) (a : ToolArgs) (t : Tool)
    (ht : t = .figure true ∨ t = .table true ∨ t = .affiliation true false)
    (cfg : DocCfg) (mains : List (Option Str)) (passes : Doc → Except Err Bool) (root c root' : Elem) (target path : Str)
    (failed : Option Str)
    (he : ExactEnv env.simple (simpleCfg a true true false)) (hcc : env.simple.cc = cfg.cc)
    (f : Char → Char) (hlow : ∀ s, env.simple.lower s = s.map f) (hf : f ' ' = ' ' ∧ f '\t' = '\t' ∧ f '\n' = '\n')
    (x : Target) (after : List Target) (v : Str) (hx : a.targets = x :: after)
    (hn : ∀ y ∈ a.targets, y.name ≠ [] ∧ tagValue (some y.name) = some y.name)
    (hre : truthy ((simpleCfg a true true false).tagConfig x.name).matchPrefixRegex = false)
    (sb sa : List (Str × TargetValue)) (name w : Str) (hsubs : x.subs = sb ++ (name, .one w) :: sa)
    (hname : name ≠ [] ∧ tagValue (some name) = some name)
    (hm : ReadableMapping cfg.mapping mains) (hread : Spec.readableLabels a t cfg.mapping mains)
    (hel : SubElement cfg.mapping x.name name)
    (hk : Spec.noneKept a t cfg root) (hc : findAll cfg.containerPath root = [c])
    (h : t.run env a cfg passes root target failed = .ok (some (path, root'))) :
    ∃ d0 d'', loadDoc { cfg with preserveTags := true } root = .ok d0 ∧
      loadDoc { cfg with preserveTags := true } root' = .ok d'' ∧
      let d := beforeAnnotator (t.annotateCfg a) d0
      let lines := firstLines d a.lookahead
      (CommonSpace cfg.cc (tokenTexts d0) → noSpace (env.simple.lower w) ≠ [] →
        OccursFor env.simple (simpleCfg a true true false) x v (seqsText (matchSeqEnv env.simple) d lines) →
        (∀ tokens, OccurrenceTokens env.simple d lines (normaliseStr env.simple.lower v) tokens →
          OccursWithin (searchEnv env.simple (simpleCfg a true true false) 1) (env.simple.lower (matchText env.simple.cc d tokens)) (env.simple.lower w) ∧
          ∀ n w', (n, .one w') ∈ sb → NotTakenBy env.simple (simpleCfg a true true false) d tokens w' w) →
        ∃ tokens, OccurrenceTokens env.simple d lines (normaliseStr env.simple.lower v) tokens ∧
          FirstLineReadBack env.simple d d'' tokens w name) := by
  obtain ⟨d0, d', h0, h1, h2, hsub⟩ := C127_tool_partial env a true t
    (ht.imp id (Or.imp id fun e => ⟨false, e⟩)) cfg passes root root' target path failed he f hlow x after v
    hx hre sb sa name w hsubs hname h
  have hdist := readable_distinct (cc := cfg.cc) hm d'.lineToks.flatten (run_readable hk hread h0 h1)
  obtain ⟨d'', e1, e2⟩ := C125_exact { cfg with preserveTags := true } root c root' d' rfl hc h2 hdist
  refine ⟨d0, d'', h0, e1, ?_⟩
  intro d lines hcs hw ho hocc
  have hxn := (hn x (by rw [hx]; exact List.mem_cons_self)).1
  have hbare : d = Doc.ofLines ((tokenTexts d0).map (bareLine cfg.cc)) := before_noneKept hk h0
  have hr : ¬ Spec.removesText t := by rcases ht with rfl | rfl | rfl <;> first | exact id | exact Bool.false_ne_true
  obtain ⟨tokens, htk, hlb, hmain⟩ := hsub ho hocc
  have hmain := hmain rfl (by intro i; show ProperTag (d.getTag i); rw [hbare]; exact bare_proper _ _ i) hn
  exact ⟨tokens, htk, subReadBack_first hr hcc hlow hf hxn hname hm hread hel hk hc h0 h1 h2 e1 hcs htk hlb hmain hw⟩

/-- **C146.** The same for the tool for references. -/
theorem C146_references_first_line_partial (env : ToolEnv) (a : ToolArgs) (includePrefix : Bool)
    (cfg : DocCfg) (mains : List (Option Str)) (passes : Doc → Except Err Bool) (root c root' : Elem) (target path : Str)
    (failed : Option Str)
    (he : ExactEnv env.simple (simpleCfg a true false false)) (hcc : env.simple.cc = cfg.cc) (hcr : env.ref.cc = cfg.cc)
    (f : Char → Char) (hlow : ∀ s, env.simple.lower s = s.map f) (hf : f ' ' = ' ' ∧ f '\t' = '\t' ∧ f '\n' = '\n')
    (x : Target) (after : List Target) (v : Str) (hx : a.targets = x :: after)
    (hn : ∀ y ∈ a.targets, y.name ≠ [] ∧ tagValue (some y.name) = some y.name)
    (hnames : ∀ y ∈ a.targets, ∀ s ∈ y.subs, s.1 ≠ [] ∧ tagValue (some s.1) = some s.1)
    (hre : truthy ((simpleCfg a true false false).tagConfig x.name).matchPrefixRegex = false)
    (sb sa : List (Str × TargetValue)) (name w : Str) (hsubs : x.subs = sb ++ (name, .one w) :: sa)
    (hetal : name ≠ c!"reference-etal") (hbegins : referenceBegins includePrefix name = true)
    (hm : ReadableMapping cfg.mapping mains) (hread : Spec.readableLabels a (.reference true includePrefix false) cfg.mapping mains)
    (hel : SubElement cfg.mapping x.name name)
    (hk : Spec.noneKept a (.reference true includePrefix false) cfg root) (hc : findAll cfg.containerPath root = [c])
    (h : (Tool.reference true includePrefix false).run env a cfg passes root target failed = .ok (some (path, root'))) :
    ∃ d0 d'', loadDoc { cfg with preserveTags := true } root = .ok d0 ∧
      loadDoc { cfg with preserveTags := true } root' = .ok d'' ∧
      let d := beforeAnnotator ((Tool.reference true includePrefix false).annotateCfg a) d0
      let lines := firstLines d a.lookahead
      (CommonSpace cfg.cc (tokenTexts d0) → noSpace (env.simple.lower w) ≠ [] →
        OccursFor env.simple (simpleCfg a true false false) x v (seqsText (matchSeqEnv env.simple) d lines) →
        (∀ tokens, OccurrenceTokens env.simple d lines (normaliseStr env.simple.lower v) tokens →
          OccursWithin (searchEnv env.simple (simpleCfg a true false false) 1) (env.simple.lower (matchText env.simple.cc d tokens)) (env.simple.lower w) ∧
          ∀ n w', (n, .one w') ∈ sb → NotTakenBy env.simple (simpleCfg a true false false) d tokens w' w) →
        ∃ tokens, OccurrenceTokens env.simple d lines (normaliseStr env.simple.lower v) tokens ∧
          FirstLineReadBack env.simple d d'' tokens w name) := by
  obtain ⟨d0, d', h0, h1, h2, hsub⟩ := C127_references_partial env a true includePrefix false cfg hcr passes root root' target path failed he f hlow x after v
    hx hre hnames sb sa name w hsubs hetal h
  have hdist := readable_distinct (cc := cfg.cc) hm d'.lineToks.flatten (run_readable hk hread h0 h1)
  obtain ⟨d'', e1, e2⟩ := C125_exact { cfg with preserveTags := true } root c root' d' rfl hc h2 hdist
  refine ⟨d0, d'', h0, e1, ?_⟩
  intro d lines hcs hw ho hocc
  have hxn := (hn x (by rw [hx]; exact List.mem_cons_self)).1
  have hname := hnames x (by rw [hx]; exact List.mem_cons_self) (name, .one w) (by rw [hsubs]; simp)
  have hbare : d = Doc.ofLines ((tokenTexts d0).map (bareLine cfg.cc)) := before_noneKept hk h0
  obtain ⟨tokens, htk, hlb, hmain⟩ := hsub ho hocc
  have hmain := hmain rfl (by intro i; show ProperTag (d.getTag i); rw [hbare]; exact bare_proper _ _ i) hn
  rw [hbegins, (referenceBegins_spec includePrefix name hbegins).2.2.2] at hlb
  exact ⟨tokens, htk, subReadBack_first (t := .reference true includePrefix false) Bool.false_ne_true hcc hlow hf hxn hname hm hread hel hk hc h0 h1 h2 e1 hcs htk hlb hmain hw⟩

/-! ### Examples -/

/-- The configuration of the tool for figures. -/
def exSrbCfg : DocCfg := ⟨asciiClass, teiPaths figureMapping, fun _ _ => true, [c!"text"], true⟩

/-- A figure with a caption. -/
def exSrbTarget : Target := ⟨c!"figure", .one c!"on some title", [(c!"figure-caption", .one c!"some title")]⟩

/-- Keeping no labels. -/
def exSrbArgs : ToolArgs := { targets := [exSrbTarget], noPreserveTags := true }

/-- The characters with their sub labels, before they are written and when they are read back. -/
def exReadSubs (a : ToolArgs) : Except Err (List (Char × Option Str) × List (Char × Option Str)) := do
  let d ← loadAndAnnotate exToolEnv a (.figure true) exSrbCfg exToolRoot
  let root' ← docRoot exSrbCfg exToolRoot d
  let d' ← loadDoc exSrbCfg root'
  return (subText asciiClass d, subText asciiClass d')

/-- The caption is read back. -/
example : ∃ r, exReadSubs exSrbArgs = .ok r ∧
    (c!"sometitle").map (fun c => (c, some c!"figure-caption")) <:+: r.2 ∧ r.2 = r.1 :=
  exists_of_okAnd (by decide +kernel)

/-- The conditions on the tool are met by the example file. -/
example : ExactEnv exToolEnv.simple (simpleCfg exSrbArgs true true false) ∧ exToolEnv.simple.cc = exSrbCfg.cc ∧
    (∃ f : Char → Char, (∀ s, exToolEnv.simple.lower s = s.map f) ∧ f ' ' = ' ' ∧ f '\t' = '\t' ∧ f '\n' = '\n') ∧
    (∃ mains, ReadableMapping exSrbCfg.mapping mains ∧ Spec.readableLabels exSrbArgs (.figure true) exSrbCfg.mapping mains) ∧
    SubElement exSrbCfg.mapping c!"figure" c!"figure-caption" ∧
    Spec.noneKept exSrbArgs (.figure true) exSrbCfg exToolRoot ∧ (findAll exSrbCfg.containerPath exToolRoot).length = 1 ∧
    (∃ r, (Tool.figure true).run exToolEnv exSrbArgs exSrbCfg (fun _ => .ok true) exToolRoot c!"out" none = .ok (some r)) := by
  refine ⟨⟨⟨exFind_good, exFind_good⟩, exFind_finds, exFind_finds, fun _ _ => (by simp [exToolEnv, exMatchEnv]),
      fun _ _ _ h => (by simp [exToolEnv, exMatchEnv] at h), by decide +kernel, by decide +kernel⟩, rfl,
    ⟨id, fun s => (List.map_id s).symm, rfl, rfl, rfl⟩,
    ⟨[none, some c!"figure"], readable_own (by decide +kernel), ⟨by decide +kernel, ?_, ?_⟩⟩, ?_,
    keepsNothing_noneKept ⟨rfl, rfl, rfl, rfl⟩ _ _, rfl, ?_⟩
  · rintro v ⟨n, hn, hv⟩
    have hn : n ∈ [c!"figure"] := hn
    rw [List.mem_singleton] at hn
    subst hn
    have e : tagValue (some c!"figure") = some c!"figure" := rfl
    have : v = c!"figure" := by
      rcases hv with hv | hv
      · exact hv
      · rw [e] at hv; exact (Option.some.inj hv).symm
    rw [this]
    decide
  · rintro v ⟨n, hn, hv⟩
    have hn : n ∈ [c!"figure-caption"] := hn
    rw [List.mem_singleton] at hn
    subst hn
    have e : tagValue (some c!"figure-caption") = some c!"figure-caption" := rfl
    have : v = c!"figure-caption" := by
      rcases hv with hv | hv
      · exact hv
      · rw [e] at hv; exact (Option.some.inj hv).symm
    rw [this]
    exact .inl (by decide +kernel)
  · exact ⟨by decide +kernel, by decide +kernel, by decide +kernel⟩
  · obtain ⟨r, hr, h⟩ := exists_of_okAnd (x := (Tool.figure true).run exToolEnv exSrbArgs exSrbCfg (fun _ => .ok true) exToolRoot c!"out" none)
      (p := fun r => r.isSome = true) (by decide +kernel)
    obtain ⟨r', rfl⟩ := Option.isSome_iff_exists.1 h
    exact ⟨r', hr⟩

/-- And so are those on its text. -/
example : ∃ d0, loadDoc { exSrbCfg with preserveTags := true } exToolRoot = .ok d0 ∧
    CommonSpace exSrbCfg.cc (tokenTexts d0) ∧
    let d := beforeAnnotator ((Tool.figure true).annotateCfg exSrbArgs) d0
    let lines := firstLines d exSrbArgs.lookahead
    OccursFor exToolEnv.simple (simpleCfg exSrbArgs true true false) exSrbTarget c!"on some title"
      (seqsText (matchSeqEnv exToolEnv.simple) d lines) ∧
    ∀ tokens, OccurrenceTokens exToolEnv.simple d lines (normaliseStr exToolEnv.simple.lower c!"on some title") tokens →
      OccursWithin (searchEnv exToolEnv.simple (simpleCfg exSrbArgs true true false) 1)
        (exToolEnv.simple.lower (matchText exToolEnv.simple.cc d tokens)) (exToolEnv.simple.lower c!"some title") ∧
      ValueOnOneLine exToolEnv.simple d tokens c!"some title" := by
  have key : ∃ d0, loadDoc { exSrbCfg with preserveTags := true } exToolRoot = .ok d0 ∧
      (tokenTexts d0 = [[c!"on", c!" ", c!"some", c!" ", c!"title"], [c!"by", c!" ", c!"author", c!" ", c!"abc"]] ∧
      let d := beforeAnnotator ((Tool.figure true).annotateCfg exSrbArgs) d0
      let lines := firstLines d exSrbArgs.lookahead
      seqsText (matchSeqEnv exToolEnv.simple) d lines = c!"on some title\nby author abc" ∧
      (∀ a < 28, ∀ b < 28, OccurrenceAt c!"on some title\nby author abc" c!"on some title" (a, b) →
        seqTokensBetween (matchSeqEnv exToolEnv.simple) d (a : Nat) (b : Nat) lines = [0, 2, 4]) ∧
      matchText asciiClass d [0, 2, 4] = c!"on some title" ∧
      ∃ l ∈ d.lines, ∀ i ∈ [0, 2, 4], i ∈ l.tokens) := exists_of_okAnd (by decide +kernel)
  obtain ⟨d0, h0, h1, h2, h3, h4, h5⟩ := key
  refine ⟨d0, h0, ?_, ?_, ?_⟩
  · rw [h1]
    unfold CommonSpace
    decide +kernel
  · rw [h2]
    refine ⟨rfl, by decide, .inl (by decide), .inr ⟨by decide +kernel, by decide +kernel, by decide +kernel, by decide +kernel⟩, ?_⟩
    intro _
    exact onlyLiteral_short _ _ _ (by decide +kernel) (by decide +kernel)
  · intro tokens ht
    obtain ⟨r, r1, r2⟩ := occurrenceTokens_between _ _ _ (firstLines_ne _ _) _ _ ht
    rw [h2, show normaliseStr exToolEnv.simple.lower c!"on some title" = c!"on some title" by decide +kernel] at r1
    have e1 := r1.1
    have e2 := r1.2.1
    rw [show (c!"on some title\nby author abc").length = 27 from rfl] at e2
    have := h3 r.1 (by omega) r.2 (by omega) r1
    rw [this] at r2
    subst r2
    refine ⟨?_, ?_⟩
    · show OccursWithin _ (matchText asciiClass _ _) _
      rw [h4]
      refine .inr ⟨by decide +kernel, by decide +kernel, by decide +kernel, ?_⟩
      exact onlyLiteral_short _ _ _ (by decide +kernel) (by decide +kernel)
    · intro ranges q _ _
      obtain ⟨l, hl, h6⟩ := h5
      exact ⟨l, hl, fun x hx _ => h6 x.1 (List.of_mem_zip hx).1⟩

/-- A figure with a caption on two lines. -/
def exSrbTwoTarget : Target := ⟨c!"figure", .one c!"some title by author", [(c!"figure-caption", .one c!"title by")]⟩

def exSrbTwoArgs : ToolArgs := { targets := [exSrbTwoTarget], noPreserveTags := true }

/-- The conditions on the text, for values on two lines. -/
example : ∃ d0, loadDoc { exSrbCfg with preserveTags := true } exToolRoot = .ok d0 ∧
    CommonSpace exSrbCfg.cc (tokenTexts d0) ∧
    let d := beforeAnnotator ((Tool.figure true).annotateCfg exSrbTwoArgs) d0
    let lines := firstLines d exSrbTwoArgs.lookahead
    OccursFor exToolEnv.simple (simpleCfg exSrbTwoArgs true true false) exSrbTwoTarget c!"some title by author"
      (seqsText (matchSeqEnv exToolEnv.simple) d lines) ∧
    ∀ tokens, OccurrenceTokens exToolEnv.simple d lines (normaliseStr exToolEnv.simple.lower c!"some title by author") tokens →
      OccursWithin (searchEnv exToolEnv.simple (simpleCfg exSrbTwoArgs true true false) 1)
        (exToolEnv.simple.lower (matchText exToolEnv.simple.cc d tokens)) (exToolEnv.simple.lower c!"title by") := by
  have key : ∃ d0, loadDoc { exSrbCfg with preserveTags := true } exToolRoot = .ok d0 ∧
      (tokenTexts d0 = [[c!"on", c!" ", c!"some", c!" ", c!"title"], [c!"by", c!" ", c!"author", c!" ", c!"abc"]] ∧
      let d := beforeAnnotator ((Tool.figure true).annotateCfg exSrbTwoArgs) d0
      let lines := firstLines d exSrbTwoArgs.lookahead
      seqsText (matchSeqEnv exToolEnv.simple) d lines = c!"on some title\nby author abc" ∧
      (∀ a < 28, ∀ b < 28, OccurrenceAt c!"on some title\nby author abc" c!"some title by author" (a, b) →
        seqTokensBetween (matchSeqEnv exToolEnv.simple) d (a : Nat) (b : Nat) lines = [2, 4, 5, 7]) ∧
      matchText asciiClass d [2, 4, 5, 7] = c!"some title by author") := exists_of_okAnd (by decide +kernel)
  obtain ⟨d0, h0, h1, h2, h3, h4⟩ := key
  refine ⟨d0, h0, ?_, ?_, ?_⟩
  · rw [h1]
    unfold CommonSpace
    decide +kernel
  · rw [h2]
    refine ⟨rfl, by decide, .inl (by decide), .inr ⟨by decide +kernel, by decide +kernel, by decide +kernel, by decide +kernel⟩, ?_⟩
    intro _
    exact onlyLiteral_short _ _ _ (by decide +kernel) (by decide +kernel)
  · intro tokens ht
    obtain ⟨r, r1, r2⟩ := occurrenceTokens_between _ _ _ (firstLines_ne _ _) _ _ ht
    rw [h2, show normaliseStr exToolEnv.simple.lower c!"some title by author" = c!"some title by author" by decide +kernel] at r1
    have e1 := r1.1
    have e2 := r1.2.1
    rw [show (c!"on some title\nby author abc").length = 27 from rfl] at e2
    have := h3 r.1 (by omega) r.2 (by omega) r1
    rw [this] at r2
    subst r2
    show OccursWithin _ (matchText asciiClass _ _) _
    rw [h4]
    refine .inr ⟨by decide +kernel, by decide +kernel, by decide +kernel, ?_⟩
    exact onlyLiteral_short _ _ _ (by decide +kernel) (by decide +kernel)

/-- The configuration of the tool for affiliations. -/
def exSrbAffCfg : DocCfg := ⟨asciiClass, teiPaths affiliationMapping, fun _ _ => true, [c!"text"], true⟩

/-- An affiliation with a city. -/
def exSrbAffArgs : ToolArgs :=
  { targets := [⟨c!"author_aff", .one c!"on some title", [(c!"author_aff-address-city", .one c!"some")]⟩], noPreserveTags := true }

/-- The city is read back, and it is part of the address to which what follows it belongs. -/
example : ∃ r, (do
      let d ← loadAndAnnotate exToolEnv exSrbAffArgs (.affiliation true false) exSrbAffCfg exToolRoot
      let root' ← docRoot exSrbAffCfg exToolRoot d
      let d' ← loadDoc exSrbAffCfg root'
      return (d.nonSpaceTokens.map (fun i => d.getSubTag i), subText asciiClass d')) = Except.ok (ε := Err) r ∧
    r.1 = [none, some c!"b-author_aff-address-city", some c!"i-author_aff-address", none, none, none] ∧
    (c!"some").map (fun c => (c, some c!"author_aff-address-city")) <:+: r.2 :=
  exists_of_okAnd (by decide +kernel)

/-- The conditions on the tool are met by the example file. -/
example : (∃ mains, ReadableMapping exSrbAffCfg.mapping mains ∧ Spec.readableLabels exSrbAffArgs (.affiliation true false) exSrbAffCfg.mapping mains) ∧
    SubElement exSrbAffCfg.mapping c!"author_aff" c!"author_aff-address-city" ∧
    Spec.noneKept exSrbAffArgs (.affiliation true false) exSrbAffCfg exToolRoot ∧
    (∃ r, (Tool.affiliation true false).run exToolEnv exSrbAffArgs exSrbAffCfg (fun _ => .ok true) exToolRoot c!"out" none = .ok (some r)) := by
  refine ⟨⟨[none, some c!"author_aff"], readable_own (by decide +kernel), ⟨by decide +kernel, ?_, ?_⟩⟩, ?_,
    keepsNothing_noneKept ⟨rfl, rfl, rfl, rfl⟩ _ _, ?_⟩
  · rintro v ⟨n, hn, hv⟩
    have hn : n ∈ [c!"author_aff"] := hn
    rw [List.mem_singleton] at hn
    subst hn
    have e : tagValue (some c!"author_aff") = some c!"author_aff" := rfl
    have : v = c!"author_aff" := by
      rcases hv with hv | hv
      · exact hv
      · rw [e] at hv; exact (Option.some.inj hv).symm
    rw [this]
    decide
  · rintro v ⟨n, hn, hv⟩
    have hn : n ∈ [c!"author_aff-address", c!"author_aff-address-city"] := hn
    simp only [List.mem_cons, List.not_mem_nil, or_false] at hn
    have e1 : tagValue (some c!"author_aff-address-city") = some c!"author_aff-address-city" := rfl
    have e2 : tagValue (some c!"author_aff-address") = some c!"author_aff-address" := rfl
    have : v = c!"author_aff-address-city" ∨ v = c!"author_aff-address" := by
      rcases hn with rfl | rfl <;> rcases hv with hv | hv
      · exact .inr hv
      · rw [e2] at hv; exact .inr (Option.some.inj hv).symm
      · exact .inl hv
      · rw [e1] at hv; exact .inl (Option.some.inj hv).symm
    rcases this with rfl | rfl
    · exact .inl (by decide +kernel)
    · exact .inl (by decide +kernel)
  · exact ⟨by decide +kernel, by decide +kernel, by decide +kernel⟩
  · obtain ⟨r, hr, h⟩ := exists_of_okAnd
      (x := (Tool.affiliation true false).run exToolEnv exSrbAffArgs exSrbAffCfg (fun _ => .ok true) exToolRoot c!"out" none)
      (p := fun r => r.isSome = true) (by decide +kernel)
    obtain ⟨r', rfl⟩ := Option.isSome_iff_exists.1 h
    exact ⟨r', hr⟩

/-- The configuration of the tool for references. -/
def exSrbRefCfg : DocCfg := ⟨asciiClass, teiPaths referenceMapping, fun _ _ => true, [c!"text"], true⟩

/-- A reference with a year. -/
def exSrbRefArgs : ToolArgs :=
  { targets := [⟨c!"reference", .one c!"on some title", [(c!"reference-year", .one c!"some")]⟩], noPreserveTags := true }

/-- The year is read back. -/
example : ∃ r, (do
      let d ← loadAndAnnotate exToolEnv exSrbRefArgs (.reference true false false) exSrbRefCfg exToolRoot
      let root' ← docRoot exSrbRefCfg exToolRoot d
      let d' ← loadDoc exSrbRefCfg root'
      return (d.nonSpaceTokens.map (fun i => d.getSubTag i), subText asciiClass d')) = Except.ok (ε := Err) r ∧
    r.1 = [none, some c!"b-reference-year", none, none, none, none] ∧
    (c!"some").map (fun c => (c, some c!"reference-year")) <:+: r.2 :=
  exists_of_okAnd (by decide +kernel)

/-- The conditions on the tool are met by the example file. -/
example : exToolEnv.ref.cc = exSrbRefCfg.cc ∧ (∀ y ∈ exSrbRefArgs.targets, ∀ s ∈ y.subs, s.1 ≠ [] ∧ tagValue (some s.1) = some s.1) ∧
    referenceBegins false c!"reference-year" = true ∧
    (∃ mains, ReadableMapping exSrbRefCfg.mapping mains ∧ Spec.readableLabels exSrbRefArgs (.reference true false false) exSrbRefCfg.mapping mains) ∧
    SubElement exSrbRefCfg.mapping c!"reference" c!"reference-year" ∧
    Spec.noneKept exSrbRefArgs (.reference true false false) exSrbRefCfg exToolRoot ∧
    (∃ r, (Tool.reference true false false).run exToolEnv exSrbRefArgs exSrbRefCfg (fun _ => .ok true) exToolRoot c!"out" none = .ok (some r)) := by
  refine ⟨rfl, by decide +kernel, by decide +kernel, ⟨[none, some c!"reference"], readable_own (by decide +kernel), ⟨by decide +kernel, ?_, ?_⟩⟩, ?_,
    keepsNothing_noneKept ⟨rfl, rfl, rfl, rfl⟩ _ _, ?_⟩
  · rintro v ⟨n, hn, hv⟩
    have hn : n ∈ [c!"reference"] := hn
    rw [List.mem_singleton] at hn
    subst hn
    have e : tagValue (some c!"reference") = some c!"reference" := rfl
    have : v = c!"reference" := by
      rcases hv with hv | hv
      · exact hv
      · rw [e] at hv; exact (Option.some.inj hv).symm
    rw [this]
    decide
  · rintro v ⟨n, hn, hv⟩
    have hn : n ∈ [c!"reference-page", c!"reference-year"] := hn
    simp only [List.mem_cons, List.not_mem_nil, or_false] at hn
    have e1 : tagValue (some c!"reference-page") = some c!"reference-page" := rfl
    have e2 : tagValue (some c!"reference-year") = some c!"reference-year" := rfl
    have : v = c!"reference-page" ∨ v = c!"reference-year" := by
      rcases hn with rfl | rfl <;> rcases hv with hv | hv
      · exact .inl hv
      · rw [e1] at hv; exact .inl (Option.some.inj hv).symm
      · exact .inr hv
      · rw [e2] at hv; exact .inr (Option.some.inj hv).symm
    rcases this with rfl | rfl
    · exact .inl (by decide +kernel)
    · exact .inl (by decide +kernel)
  · exact ⟨by decide +kernel, by decide +kernel, by decide +kernel⟩
  · obtain ⟨r, hr, h⟩ := exists_of_okAnd
      (x := (Tool.reference true false false).run exToolEnv exSrbRefArgs exSrbRefCfg (fun _ => .ok true) exToolRoot c!"out" none)
      (p := fun r => r.isSome = true) (by decide +kernel)
    obtain ⟨r', rfl⟩ := Option.isSome_iff_exists.1 h
    exact ⟨r', hr⟩

/-- A value on two lines is not read back as a whole: the caption `title by` has its sub label on both lines when it is
written, but when the file is loaded again, what is on the second line has none. -/
theorem C146_two_lines : ∃ r, exReadSubs { exSrbArgs with
      targets := [⟨c!"figure", .one c!"some title by author", [(c!"figure-caption", .one c!"title by")]⟩] } = .ok r ∧
    ((c!"titleby").map (fun c => (c, some c!"figure-caption")) <:+: r.1 ∧
      r.2 = (c!"onsome").map (fun c => (c, none)) ++ (c!"title").map (fun c => (c, some c!"figure-caption")) ++
        (c!"byauthorabc").map (fun c => (c, none))) :=
  exists_of_okAnd (by decide +kernel)

end Verif
