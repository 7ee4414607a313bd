/-
C134: a value which occurs literally can be read back from the file written.
-/
import Verif.Spec.ReadBack
import Verif.Props.ManyPlaces
import Verif.Props.ReloadFields
import Verif.Props.RunAgain

namespace Verif
open Spec

namespace Spec

/-- The labels a tool may give can be read back, as can text without a label. -/
def readableLabels (a : ToolArgs) (t : Tool) (mapping : Dict Str) (mains : List (Option Str)) : Prop :=
  none ∈ mains ∧ (∀ v, oneOf (toolLabels a t) v → some v ∈ mains) ∧
    ∀ v, oneOf (toolSubLabels a t) v → v ∈ mapping.map (·.1) ∨ OneStep v

end Spec

/-- Without further fields the labels of the tool itself can be read back. -/
theorem readable_own {mapping : Dict Str} {mains : List (Option Str)} (h : (mapping, mains) ∈ toolTags) :
    ReadableMapping mapping mains :=
  ⟨mapping, mains, [], ⟨h, fun _ hf => nomatch hf⟩, rfl, (List.append_nil _).symm⟩

theorem mainValue_of_tag {t : Tok} {v : Str} (hv : v ≠ []) (h : tagValue (t.attrib.get? c!"tag") = some v) :
    mainValue t = some v := by
  have hf : fullTag t = t.attrib.get? c!"tag" := by
    unfold fullTag
    generalize t.attrib.get? c!"tag" = x at h
    match x with
    | none => cases h
    | some [] => exact absurd (Option.some.inj h).symm hv
    | some (c :: s) => rfl
  unfold mainValue
  rw [hf, h]
  cases v with
  | nil => exact absurd rfl hv
  | cons c v => rfl

theorem labelledChars_append (cc : CharClass) (a b : List Tok) :
    labelledChars cc (a ++ b) = labelledChars cc a ++ labelledChars cc b := by
  unfold labelledChars
  rw [List.flatMap_append]

theorem labelledChars_infix (cc : CharClass) {a b : List Tok} (h : a <:+: b) : labelledChars cc a <:+: labelledChars cc b := by
  obtain ⟨p, q, rfl⟩ := h
  exact ⟨labelledChars cc p, labelledChars cc q, by rw [labelledChars_append, labelledChars_append]⟩

theorem labelledChars_nonblank (cc : CharClass) (toks : List Tok) (p : Tok → Bool) (h : ∀ t ∈ toks, p t = false → blank cc t = true) :
    labelledChars cc toks = labelledChars cc (toks.filter p) := by
  induction toks with
  | nil => rfl
  | cons t ts ih =>
    have ih := ih (fun u hu => h u (List.mem_cons_of_mem _ hu))
    rw [List.filter_cons]
    cases hp : p t with
    | true =>
      rw [if_pos rfl]
      show (_ ++ labelledChars cc ts) = (_ ++ labelledChars cc (ts.filter p))
      rw [ih]
    | false =>
      rw [if_neg (by simp), ← ih]
      have hb := h t List.mem_cons_self hp
      show (((t.text.filter _).map _) ++ labelledChars cc ts) = _
      have : t.text.filter (fun c => !cc.isSpace c) = [] := by
        rw [List.filter_eq_nil_iff]
        intro c hc
        rw [List.all_eq_true.1 hb c hc]
        simp
      rw [this]
      rfl

/-- The tokens made of texts: white space exactly if they are blank, without labels. -/
theorem bareRev_mem {cc : CharClass} (l : List Str) : ∀ (next : Option Str) (t : Tok), t ∈ bareRev cc next l →
    t.isSpace = (strip cc t.text).isEmpty ∧ t.attrib = [] ∧
    (t.whitespace = none ∨ t.whitespace = some [] ∨ ∃ s, t.whitespace = some s ∧ (strip cc s).isEmpty = true ∧ (s ∈ l ∨ next = some s)) := by
  induction l with
  | nil => intro next t h; cases h
  | cons s r ih =>
    intro next t h
    unfold bareRev at h
    rcases List.mem_cons.1 h with rfl | h
    · refine ⟨rfl, rfl, ?_⟩
      cases next with
      | none => exact .inl rfl
      | some n =>
        simp only [Option.map_some]
        split
        · next hs => exact .inr (.inr ⟨n, rfl, hs, .inr rfl⟩)
        · exact .inr (.inl rfl)
    · obtain ⟨h1, h2, h3⟩ := ih _ _ h
      refine ⟨h1, h2, ?_⟩
      rcases h3 with h3 | h3 | ⟨u, h3, h4, h5⟩
      · exact .inl h3
      · exact .inr (.inl h3)
      · refine .inr (.inr ⟨u, h3, h4, .inl ?_⟩)
        rcases h5 with h5 | h5
        · exact List.mem_cons_of_mem _ h5
        · cases h5
          exact List.mem_cons_self

theorem bareLines_mem {cc : CharClass} {lines : List (List Str)} {t : Tok} (h : t ∈ (lines.map (bareLine cc)).flatten) :
    t.isSpace = (strip cc t.text).isEmpty ∧ t.attrib = [] ∧
    (t.whitespace = none ∨ t.whitespace = some [] ∨
      ∃ s, t.whitespace = some s ∧ (strip cc s).isEmpty = true ∧ ∃ l ∈ lines, s ∈ l) := by
  obtain ⟨l, hl, ht⟩ := List.mem_flatten.1 h
  obtain ⟨m, hm, rfl⟩ := List.mem_map.1 hl
  unfold bareLine at ht
  obtain ⟨h1, h2, h3⟩ := bareRev_mem _ _ _ (List.mem_reverse.1 ht)
  refine ⟨h1, h2, ?_⟩
  rcases h3 with h3 | h3 | ⟨u, h3, h4, h5⟩
  · exact .inl h3
  · exact .inr (.inl h3)
  · rcases h5 with h5 | h5
    · exact .inr (.inr ⟨u, h3, h4, m, hm, List.mem_reverse.1 h5⟩)
    · cases h5

/-- A token of a document made of lines is one of them, or the default. -/
theorem ofLines_tok (ls : List (List Tok)) (i : Nat) :
    (Doc.ofLines ls).tok i ∈ ls.flatten ∨ (Doc.ofLines ls).tok i = ⟨[], false, [], none⟩ := by
  show ls.flatten.getD i _ ∈ _ ∨ ls.flatten.getD i _ = _
  rw [List.getD_eq_getElem?_getD]
  cases h : ls.flatten[i]? with
  | none => exact .inr rfl
  | some t => exact .inl (List.mem_of_getElem? h)

theorem noSpace_common {cc : CharClass} {s : Str} (hs : (strip cc s).isEmpty = true)
    (hc : ∀ c ∈ s, cc.isSpace c = true → c = ' ' ∨ c = '\t' ∨ c = '\n') : noSpace s = [] := by
  have hb : ∀ c ∈ s, cc.isSpace c = true := by
    have := nonSpace_strip cc s
    rw [List.isEmpty_iff.1 hs] at this
    have h0 : nonSpace cc s = [] := this.symm
    unfold nonSpace at h0
    rw [List.filter_eq_nil_iff] at h0
    intro c hcs
    have := h0 c hcs
    simpa using this
  unfold noSpace
  rw [List.filter_eq_nil_iff]
  intro c hcs
  rcases hc c hcs (hb c hcs) with rfl | rfl | rfl <;> decide

theorem gaps_bare {cc : CharClass} {lines : List (List Str)} (hc : CommonSpace cc lines) (seqs : List (List Nat)) :
    ∀ g ∈ tokenGaps (Doc.ofLines (lines.map (bareLine cc))) seqs, noSpace g = [] := by
  intro g hg
  unfold tokenGaps at hg
  obtain ⟨s, _, hg⟩ := List.mem_flatMap.1 hg
  rcases List.mem_append.1 hg with hg | hg
  · obtain ⟨i, _, rfl⟩ := List.mem_map.1 ((List.dropLast_sublist _).subset hg)
    rcases ofLines_tok (lines.map (bareLine cc)) i with h | h
    · obtain ⟨_, _, h3⟩ := bareLines_mem h
      rcases h3 with h3 | h3 | ⟨u, h3, h4, l, hl, hu⟩
      · rw [h3]; rfl
      · rw [h3]; rfl
      · rw [h3]
        exact noSpace_common h4 (hc l hl u hu)
    · rw [h]; rfl
  · rw [List.mem_singleton.1 hg]; rfl

theorem bare_getTag (cc : CharClass) (lines : List (List Str)) (i : Nat) :
    (Doc.ofLines (lines.map (bareLine cc))).getTag i = none := by
  have : ((Doc.ofLines (lines.map (bareLine cc))).tok i).attrib = [] := by
    rcases ofLines_tok (lines.map (bareLine cc)) i with h | h
    · exact (bareLines_mem h).2.1
    · rw [h]
  show ((Doc.ofLines (lines.map (bareLine cc))).tok i).attrib.get? _ = none
  rw [this]
  rfl

/-- Without labels the lines searched are the first lines of the document. -/
theorem firstLines_bare (cc : CharClass) (lines : List (List Str)) (limit : Nat) :
    (firstLines (Doc.ofLines (lines.map (bareLine cc))) limit).flatten <+:
      (Doc.ofLines (lines.map (bareLine cc))).nonSpaceTokens := by
  generalize hd : Doc.ofLines (lines.map (bareLine cc)) = d
  have htag : ∀ i, d.getTag i = none := fun i => by rw [← hd]; exact bare_getTag cc lines i
  have hu : ∀ l, untagged d l = l := by
    intro l
    unfold untagged
    rw [List.filter_eq_self]
    intro i _
    rw [htag i]
    rfl
  have hall : (untaggedLines d).flatten = d.nonSpaceTokens := by
    have := pendingOfDoc_flatten d
    exact this.trans (hu _)
  unfold firstLines
  split
  · rw [hall]
    exact List.prefix_refl _
  · rw [← hall]
    conv => rhs; rw [← List.take_append_drop limit (untaggedLines d), List.flatten_append]
    exact List.prefix_append _ _

/-- What tokens with the label spell can be read back. -/
theorem spelled_readBack {cc : CharClass} {env : MatchEnv} {lines : List (List Str)} {d d' : Doc} {seqs : List (List Nat)}
    {value label : Str} (hcc : env.cc = cc) (hd : d = Doc.ofLines (lines.map (bareLine cc))) (hs : SameBut d d')
    (hseq : seqs.flatten <:+: d.nonSpaceTokens) (hl : label ≠ []) (h : SpelledBy env d d' seqs value label) :
    ReadBack cc env.lower d' value label := by
  subst hcc
  obtain ⟨ts, h1, h2, h3⟩ := h
  refine ⟨ts.map (fun i => d.getText env.cc i), ?_, by rw [List.flatMap_map]; exact h3⟩
  have e1 : labelledText env.cc d' = labelledChars env.cc (d.nonSpaceTokens.map d'.tok) := by
    unfold labelledText
    rw [lineToks_flatten, labelledChars_nonblank env.cc _ (fun t => !t.isSpace), List.filter_map]
    · congr 2
      have ha : d'.allTokens = d.allTokens := by unfold Doc.allTokens; rw [hs.lines]
      rw [ha, hd, nonSpaceTokens_ofLines, ← hd]
      refine List.filter_congr fun i _ => ?_
      show (!(d'.tok i).isSpace) = _
      rw [hs.isSpace]
    · intro t ht hp
      obtain ⟨i, _, rfl⟩ := List.mem_map.1 ht
      have hsp : (d.tok i).isSpace = true := by
        rw [← hs.isSpace]; simpa using hp
      unfold blank
      rw [hs.text]
      rw [hd] at hsp ⊢
      rcases ofLines_tok (lines.map (bareLine env.cc)) i with h | h
      · have := (bareLines_mem h).1
        rw [hsp] at this
        rw [List.all_eq_true]
        intro c hc
        have h0 := nonSpace_strip env.cc ((Doc.ofLines (lines.map (bareLine env.cc))).tok i).text
        rw [List.isEmpty_iff.1 this.symm] at h0
        have h0 : nonSpace env.cc _ = [] := h0.symm
        unfold nonSpace at h0
        rw [List.filter_eq_nil_iff] at h0
        simpa using h0 c hc
      · rw [h]; rfl
  have e2 : (ts.map (fun i => d.getText env.cc i)).flatMap
      (fun s => (s.filter (fun c => !env.cc.isSpace c)).map (fun c => (c, some label))) = labelledChars env.cc (ts.map d'.tok) := by
    unfold labelledChars
    rw [List.flatMap_map, List.flatMap_map]
    clear h1 h3
    induction ts with
    | nil => rfl
    | cons i ts ih =>
      rw [List.flatMap_cons, List.flatMap_cons, ih (fun j hj => h2 j (List.mem_cons_of_mem _ hj))]
      congr 1
      rw [mainValue_of_tag hl (h2 i List.mem_cons_self), hs.text]
      congr 1
      exact nonSpace_strip env.cc _
  rw [e1, e2]
  exact labelledChars_infix _ ((h1.trans hseq).map _)

/-- The labels given can be read back. -/
theorem run_readable {env : ToolEnv} {a : ToolArgs} {t : Tool} {cfg : DocCfg} {mains : List (Option Str)} {root : Elem} {d0 d' : Doc}
    (hk : Spec.noneKept a t cfg root) (hr : Spec.readableLabels a t cfg.mapping mains)
    (h0 : loadDoc { cfg with preserveTags := true } root = .ok d0)
    (h1 : annotateAll (t.annotators env a) (beforeAnnotator (t.annotateCfg a) d0) = .ok d') :
    ∀ u ∈ d'.lineToks.flatten, blank cfg.cc u = false →
      mainValue u ∈ mains ∧ ReadableSub cfg.mapping (subValue u) := by
  intro u hu _
  rw [lineToks_flatten] at hu
  obtain ⟨i, _, rfl⟩ := List.mem_map.1 hu
  have hw := writerTags_eq (d'.tok i)
  unfold writerTags at hw
  rw [Prod.mk.injEq] at hw
  refine ⟨?_, ?_⟩
  · unfold mainValue
    split
    · next c v hv =>
      rw [← hw.1] at hv
      rcases (C96_labels env a t _ root d0 d' h0 h1 i _ (List.cons_ne_nil c v)).1 hv with h | ⟨j, hj, hv, h⟩
      · exact hr.2.1 _ h
      · exact absurd h ((hk d0 h0 j hj _).1 hv)
    · exact hr.1
  · unfold subValue
    split
    · next c v hv =>
      rw [← hw.2] at hv
      rcases (C96_labels env a t _ root d0 d' h0 h1 i _ (List.cons_ne_nil c v)).2 hv with h | ⟨j, hj, hv, h⟩
      · rintro _ ⟨⟩
        exact hr.2.2 _ h
      · exact absurd h ((hk d0 h0 j hj _).2 hv)
    · rintro _ ⟨⟩

theorem bare_proper (cc : CharClass) (lines : List (List Str)) (j : Nat) :
    ProperTag ((Doc.ofLines (lines.map (bareLine cc))).getTag j) := by
  intro s hs
  rw [bare_getTag] at hs
  cases hs

/-- What a tool labels in a document without labels can be read back from the file it writes. -/
theorem labelled_readBack {env : ToolEnv} {a : ToolArgs} {t : Tool} {cc : CharClass} {lines : List (List Str)} {d d' : Doc}
    {value label : Str} (hcc : env.simple.cc = cc) (hr : ¬ Spec.removesText t)
    (hd : d = Doc.ofLines (lines.map (bareLine cc))) (hcs : CommonSpace cc lines) (hl : label ≠ [])
    (h1 : annotateAll (t.annotators env a) d = .ok d')
    (h : LabelledAt env.simple d d' (firstLines d a.lookahead) value label) : ReadBack cc env.simple.lower d' value label := by
  have hsp := C126_spelled env.simple d d' _ _ _ (by rw [hd]; exact gaps_bare hcs _) h
  have hs : SameBut d d' := keeps_annotateAll _ (tool_keeps env a t hr) _ _ h1
  exact spelled_readBack hcc hd hs (by rw [hd]; exact (firstLines_bare _ _ _).isInfix) hl hsp

/-- **C134.** What is read from the file a tool has written are the labels it has given: the file can be loaded again, and
each of its characters other than white space has the label it had when the file was written. -/
theorem C134_written (env : ToolEnv) (a : ToolArgs) (t : Tool) (cfg : DocCfg) (mains : List (Option Str))
    (passes : Doc → Except Err Bool) (root c root' : Elem) (target path : Str) (failed : Option Str)
    (hm : ReadableMapping cfg.mapping mains) (hread : Spec.readableLabels a t cfg.mapping mains)
    (hk : Spec.noneKept a t cfg root) (hc : findAll cfg.containerPath root = [c])
    (h : t.run env a cfg passes root target failed = .ok (some (path, root'))) :
    ∃ d0 d' d'', loadDoc { cfg with preserveTags := true } root = .ok d0 ∧
      annotateAll (t.annotators env a) (beforeAnnotator (t.annotateCfg a) d0) = .ok d' ∧
      loadDoc { cfg with preserveTags := true } root' = .ok d'' ∧ labelledText cfg.cc d'' = labelledText cfg.cc d' := by
  obtain ⟨d0, d', h0, h1, h2, _⟩ := run_steps h
  obtain ⟨d'', e1, e2⟩ := C135_labels { cfg with preserveTags := true } mains root c root' d' hm rfl hc h2
    (run_readable hk hread h0 h1)
  exact ⟨d0, d', d'', h0, h1, e1, e2⟩

/-- **C134.** A value which occurs literally can be read back from the file written: running a tool on a file, none of
whose labels are to be kept, with a target annotation whose value occurs literally in the text of its first lines, writes
a file which, when it is loaded, has neighbouring text with the label of the target annotation that contains the value. -/
theorem C134_read_back (env : ToolEnv) (a : ToolArgs) (t : Tool) (cfg : DocCfg) (mains : List (Option Str))
    (passes : Doc → Except Err Bool) (root c root' : Elem) (target path : Str) (failed : Option Str)
    (he : ExactEnv env.simple (simpleCfg a false false true)) (hcc : env.simple.cc = cfg.cc)
    (ht : labelsByMatching a t) (hr : ¬ Spec.removesText t)
    (x : Target) (after : List Target) (v : Str) (hx : a.targets = x :: after)
    (hn : ∀ y ∈ a.targets, y.name ≠ [] ∧ tagValue (some y.name) = some y.name)
    (hrep : (∃ p q r, t = .fulltext p q r) → x.name ≠ c!"note_other" ∧ x.name ≠ c!"note[@type=\"other\"]")
    (hm : ReadableMapping cfg.mapping mains) (hread : Spec.readableLabels a t cfg.mapping mains)
    (hk : Spec.noneKept a t cfg root) (hc : findAll cfg.containerPath root = [c])
    (h : t.run env a cfg passes root target failed = .ok (some (path, root'))) :
    ∃ d0 d'', loadDoc { cfg with preserveTags := true } root = .ok d0 ∧
      loadDoc { cfg with preserveTags := true } root' = .ok d'' ∧
      let d := beforeAnnotator (t.annotateCfg a) d0
      (CommonSpace cfg.cc (tokenTexts d0) →
        OccursFor env.simple (simpleCfg a false false true) x v (seqsText (matchSeqEnv env.simple) d (firstLines d a.lookahead)) →
        ReadBack cfg.cc env.simple.lower d'' (normaliseStr env.simple.lower v) x.name) := by
  obtain ⟨d0, d', d'', h0, h1, e1, e2⟩ :=
    C134_written env a t cfg mains passes root c root' target path failed hm hread hk hc h
  refine ⟨d0, d'', h0, e1, ?_⟩
  intro d hcs ho
  have hxn := (hn x (by rw [hx]; exact List.mem_cons_self)).1
  have hbare : d = Doc.ofLines ((tokenTexts d0).map (bareLine cfg.cc)) := before_noneKept hk h0
  have hlab := run_literal_label env a t d d' he ht x after v hx hn hrep (by rw [hbare]; exact bare_proper _ _)
    (nodup_loadDoc h0 (Props.C14_aux_sameBut _ _)).2 h1 ho
  obtain ⟨texts, r1, r2⟩ := labelled_readBack hcc hr hbare hcs hxn h1 hlab
  exact ⟨texts, by rw [e2]; exact r1, r2⟩

/-- **C134** for lists of values: if the places of the values are close together, each of the values which are found can
be read back. -/
theorem C134_read_back_many (env : ToolEnv) (a : ToolArgs) (t : Tool) (cfg : DocCfg) (mains : List (Option Str))
    (passes : Doc → Except Err Bool) (root c root' : Elem) (target path : Str) (failed : Option Str)
    (he : ExactEnv env.simple (simpleCfg a false false true)) (hcc : env.simple.cc = cfg.cc)
    (ht : labelsByMatching a t) (hr : ¬ Spec.removesText t)
    (x : Target) (after : List Target) (vs : List Str) (hx : a.targets = x :: after)
    (hn : ∀ y ∈ a.targets, y.name ≠ [] ∧ tagValue (some y.name) = some y.name)
    (hrep : (∃ p q r, t = .fulltext p q r) → x.name ≠ c!"note_other" ∧ x.name ≠ c!"note[@type=\"other\"]")
    (hm : ReadableMapping cfg.mapping mains) (hread : Spec.readableLabels a t cfg.mapping mains)
    (hk : Spec.noneKept a t cfg root) (hc : findAll cfg.containerPath root = [c])
    (h : t.run env a cfg passes root target failed = .ok (some (path, root'))) :
    ∃ d0 d'', loadDoc { cfg with preserveTags := true } root = .ok d0 ∧
      loadDoc { cfg with preserveTags := true } root' = .ok d'' ∧
      let d := beforeAnnotator (t.annotateCfg a) d0
      let text := seqsText (matchSeqEnv env.simple) d (firstLines d a.lookahead)
      let missing := Missing env.simple (simpleCfg a false false true) x.name text
      (CommonSpace cfg.cc (tokenTexts d0) → ManyOccur env.simple (simpleCfg a false false true) x vs text →
        (∀ places, PlacesOf env.simple.lower text missing vs places → CloseTogether places) →
        ∀ v ∈ vs, ¬ missing v → ReadBack cfg.cc env.simple.lower d'' (normaliseStr env.simple.lower v) x.name) := by
  obtain ⟨d0, d', d'', h0, h1, e1, e2⟩ :=
    C134_written env a t cfg mains passes root c root' target path failed hm hread hk hc h
  refine ⟨d0, d'', h0, e1, ?_⟩
  intro d text missing hcs ho hclose v hv hm
  have hxn := (hn x (by rw [hx]; exact List.mem_cons_self)).1
  have hbare : d = Doc.ofLines ((tokenTexts d0).map (bareLine cfg.cc)) := before_noneKept hk h0
  have hlab := run_many_label env a t d d' he ht x after vs hx hn hrep (by rw [hbare]; exact bare_proper _ _)
    (nodup_loadDoc h0 (Props.C14_aux_sameBut _ _)).2 h1 ho
  obtain ⟨texts, r1, r2⟩ := labelled_readBack hcc hr hbare hcs hxn h1
    (C133_each env.simple _ d d' _ vs x.name hclose hlab v hv hm)
  exact ⟨texts, by rw [e2]; exact r1, r2⟩

/-! ### Examples -/

/-- The configuration of the header tool. -/
def exReadCfg : DocCfg := ⟨asciiClass, headerMapping, fun _ _ => true, [c!"text"], true⟩

/-- Titles and authors, keeping no labels. -/
def exReadArgs : ToolArgs :=
  { targets := [⟨c!"title", .one c!"some title", []⟩, ⟨c!"author", .many [c!"abc", c!"xyz"], []⟩], noPreserveTags := true }

/-- The conditions are met by the example file. -/
example : ExactEnv exToolEnv.simple (simpleCfg exReadArgs false false true) ∧ exToolEnv.simple.cc = exReadCfg.cc ∧
    labelsByMatching exReadArgs .header ∧ ¬ Spec.removesText .header ∧
    (∃ mains, ReadableMapping exReadCfg.mapping mains ∧ Spec.readableLabels exReadArgs .header exReadCfg.mapping mains) ∧
    Spec.noneKept exReadArgs .header exReadCfg exToolRoot ∧ (findAll exReadCfg.containerPath exToolRoot).length = 1 ∧
    (∃ r, Tool.header.run exToolEnv exReadArgs exReadCfg (fun _ => .ok true) exToolRoot c!"out" none = .ok (some r)) ∧
    ∃ d0, loadDoc { exReadCfg with preserveTags := true } exToolRoot = .ok d0 ∧
      CommonSpace exReadCfg.cc (tokenTexts d0) ∧
      let d := beforeAnnotator (Tool.header.annotateCfg exReadArgs) d0
      OccursFor exToolEnv.simple (simpleCfg exReadArgs false false true) ⟨c!"title", .one c!"some title", []⟩ c!"some title"
        (seqsText (matchSeqEnv exToolEnv.simple) d (firstLines d exReadArgs.lookahead)) := by
  refine ⟨exMatch_exact _ (by decide +kernel) (by decide +kernel), rfl, ⟨rfl, rfl, rfl⟩, id,
    ⟨_, readable_own List.mem_cons_self, ⟨by decide +kernel, ?_, ?_⟩⟩, keepsNothing_noneKept ⟨rfl, rfl, rfl, rfl⟩ _ _, rfl,
    ?_, ?_⟩
  · rintro v ⟨n, hn, hv⟩
    have hn : n ∈ [c!"title", c!"author"] := hn
    have e : tagValue (some n) = some n ∧ some n ∈ [some c!"title", some c!"author"] := by
      simp only [List.mem_cons, List.not_mem_nil, or_false] at hn
      rcases hn with rfl | rfl <;> decide +kernel
    have : v = n := by
      rcases hv with hv | hv
      · exact hv
      · rw [e.1] at hv; exact (Option.some.inj hv).symm
    rw [this]
    exact List.Sublist.subset (by decide +kernel) e.2
  · rintro v ⟨n, hn, _⟩
    cases hn
  · obtain ⟨r, hr, h⟩ := exists_of_okAnd (x := Tool.header.run exToolEnv exReadArgs exReadCfg (fun _ => .ok true) exToolRoot c!"out" none)
      (p := fun r => r.isSome = true) (by decide +kernel)
    obtain ⟨r', rfl⟩ := Option.isSome_iff_exists.1 h
    exact ⟨r', hr⟩
  · have key : ∃ d0, loadDoc { exReadCfg with preserveTags := true } exToolRoot = .ok d0 ∧
        tokenTexts d0 = [[c!"on", c!" ", c!"some", c!" ", c!"title"], [c!"by", c!" ", c!"author", c!" ", c!"abc"]] ∧
        let d := beforeAnnotator (Tool.header.annotateCfg exReadArgs) d0
        seqsText (matchSeqEnv exToolEnv.simple) d (firstLines d exReadArgs.lookahead) = c!"on some title\nby author abc" :=
      exists_of_okAnd (by decide +kernel)
    obtain ⟨d0, h0, h1, h2⟩ := key
    refine ⟨d0, h0, ?_, ?_⟩
    · rw [h1]
      unfold CommonSpace
      decide +kernel
    · intro d
      rw [show seqsText _ _ _ = _ from h2]
      refine ⟨rfl, by decide, .inl (by decide), .inr ⟨by decide +kernel, by decide +kernel, by decide +kernel, by decide +kernel⟩, ?_⟩
      intro _
      exact onlyLiteral_short _ _ _ (by decide +kernel) (by decide +kernel)

/-- What is read back from the file written. -/
def exReadBack : Except Err (List (Char × Option Str)) :=
  match Tool.header.run exToolEnv exReadArgs exReadCfg (fun _ => .ok true) exToolRoot c!"out" none with
  | .ok (some (_, root')) => (loadDoc exReadCfg root').map (labelledText exReadCfg.cc)
  | _ => .error .exception

/-- The labels read back: the title, with what completes its line, and the author. -/
example : ∃ l, exReadBack = .ok l ∧
    l = c!"onsometitle".map (·, some c!"title") ++ c!"byauthor".map (·, none) ++ c!"abc".map (·, some c!"author") :=
  exists_of_okAnd (by decide +kernel)

end Verif
