import Verif.Spec.ReloadTokens
import Verif.Lemmas.ReloadEntities

namespace Verif
open Spec

/-! ### Text nodes -/

/-- A text node, unless there is no text. -/
def node (x : Option Str) : List (Option Str) := if orEmpty x = [] then [] else [some (orEmpty x)]

mutual
/-- The text nodes of an element in document order, `none` for line breaks. -/
def nodesElem : Elem → List (Option Str)
  | .mk _ _ x cs _ => node x ++ nodesList cs
def nodesList : List Elem → List (Option Str)
  | [] => []
  | .mk t a x cs tl :: es =>
    (if t = c!"lb" then [none] else []) ++ nodesElem (.mk t a x cs tl) ++ node tl ++ nodesList es
end

/-- The tokens of text nodes. -/
def cutNodes (cc : CharClass) (ns : List (Option Str)) : List (Option Str) :=
  ns.flatMap (fun
    | none => [none]
    | some s => (cutAt (tokenBoundary cc) s).map some)

/-- The characters of texts and breaks. -/
def flatNodes (ns : List (Option Str)) : List (Option Char) :=
  ns.flatMap (fun
    | none => [none]
    | some s => s.map some)

theorem cutNodes_append (cc : CharClass) (a b : List (Option Str)) :
    cutNodes cc (a ++ b) = cutNodes cc a ++ cutNodes cc b := by simp [cutNodes]

theorem flatNodes_append (a b : List (Option Str)) :
    flatNodes (a ++ b) = flatNodes a ++ flatNodes b := by simp [flatNodes]

theorem flatNodes_some (ss : List Str) : flatNodes (ss.map some) = ss.flatten.map some := by
  induction ss with
  | nil => rfl
  | cons s ss ih => simpa [flatNodes, List.flatMap_cons] using ih

theorem flatNodes_cutNodes (cc : CharClass) (ns : List (Option Str)) :
    flatNodes (cutNodes cc ns) = flatNodes ns := by
  induction ns with
  | nil => rfl
  | cons n ns ih =>
    have e1 : cutNodes cc (n :: ns) = cutNodes cc [n] ++ cutNodes cc ns := cutNodes_append cc [n] ns
    have e2 : flatNodes (n :: ns) = flatNodes [n] ++ flatNodes ns := flatNodes_append [n] ns
    rw [e1, e2, flatNodes_append, ih]
    congr 1
    cases n with
    | none => rfl
    | some s =>
      have : cutNodes cc [some s] = (cutAt (tokenBoundary cc) s).map some := by simp [cutNodes]
      rw [this, flatNodes_some, cutAt_flatten]; simp [flatNodes]

theorem nodesList_append (es fs : List Elem) : nodesList (es ++ fs) = nodesList es ++ nodesList fs := by
  induction es with
  | nil => rfl
  | cons e es ih =>
    obtain ⟨t, a, x, cs, tl⟩ := e
    simp [nodesList, ih]

/-- Cutting two texts that meet at a boundary. -/
theorem cutAt_append (b : Char → Char → Bool) (s t : Str) (x y : Char) (hs : s.getLast? = some x)
    (ht : t.head? = some y) (h : b x y = true) : cutAt b (s ++ t) = cutAt b s ++ cutAt b t := by
  induction s with
  | nil => simp at hs
  | cons c s ih =>
    cases s with
    | nil =>
      cases t with
      | nil => simp at ht
      | cons d t =>
        simp at hs ht
        subst hs ht
        show cutAt b (c :: d :: t) = _
        rw [cutAt_cons, if_pos h]
        rfl
    | cons d s =>
      have := ih (by simpa using hs)
      show cutAt b (c :: d :: (s ++ t)) = _
      rw [cutAt_cons, cutAt_cons]
      have e : d :: (s ++ t) = (d :: s) ++ t := rfl
      rw [e, this]
      split
      · rfl
      · have hne : cutAt b (d :: s) ≠ [] := by
          cases s with
          | nil => simp [cutAt]
          | cons d' s =>
            rw [cutAt_cons]
            split
            · simp
            · cases cutAt b (d' :: s) <;> simp [consHead]
        cases hc : cutAt b (d :: s) with
        | nil => exact absurd hc hne
        | cons w ws => simp [consHead]

/-! ### Writing -/

/-- The nodes of an open element. -/
def Frame.nodes (f : Frame) : List (Option Str) := node f.text ++ nodesList f.children

/-- The nodes written so far. -/
def wNodes : Frame → List Frame → List (Option Str)
  | cur, [] => cur.nodes
  | cur, p :: ps => wNodes p ps ++ (if cur.tag = c!"lb" then [none] else []) ++ cur.nodes

/-- The nodes written so far. -/
def Writer.nodes (w : Writer) : List (Option Str) := wNodes w.cur w.parents

theorem frame_nodes_append (f : Frame) (e : Elem) : (f.append e).nodes = f.nodes ++ nodesList [e] := by
  simp [Frame.nodes, Frame.append, nodesList_append]

theorem wNodes_append (cur : Frame) (ps : List Frame) (e : Elem) :
    wNodes (cur.append e) ps = wNodes cur ps ++ nodesList [e] := by
  cases ps with
  | nil => simp [wNodes, frame_nodes_append]
  | cons p ps =>
    simp only [wNodes, frame_nodes_append, List.append_assoc]
    rfl

theorem leave_nodes (w : Writer) : w.leave.nodes = w.nodes := by
  obtain ⟨cur, ps, path⟩ := w
  cases ps with
  | nil => rfl
  | cons p ps =>
    simp only [Writer.leave, Writer.nodes, wNodes_append]
    simp [wNodes, nodesList, Frame.close, Frame.nodes, nodesElem, node, orEmpty]

theorem leaveN_nodes (n : Nat) (w : Writer) : (w.leaveN n).nodes = w.nodes := by
  induction n generalizing w with
  | zero => rfl
  | succ n ih => simp only [Writer.leaveN]; rw [ih, leave_nodes]

theorem enterPath_nodes (ok : Str → Dict Str → Bool) (fs : List Str) (w w' : Writer)
    (h : enterPath ok fs w = .ok w') (hlb : NoLb fs) : w'.nodes = w.nodes := by
  induction fs generalizing w with
  | nil => simp only [enterPath] at h; cases h; rfl
  | cons f fs ih =>
    simp only [enterPath] at h
    split at h
    · cases h
    · next tag attrib hp =>
      split at h
      · have hlt : tag ≠ c!"lb" := hlb f (by simp) tag attrib hp
        rw [ih _ h (fun g hg => hlb g (by simp [hg]))]
        simp [Writer.nodes, wNodes, hlt, Frame.nodes, node, orEmpty, nodesList]
      · cases h

theorem requirePath_nodes (ok : Str → Dict Str → Bool) (req : List Str) (w w' : Writer)
    (h : requirePath ok req w = .ok w') (hlb : NoLb req) : w'.nodes = w.nodes := by
  unfold requirePath at h
  split at h
  · cases h; rfl
  · have := enterPath_nodes ok _ _ _ h (fun g hg => hlb g (List.mem_of_mem_drop hg))
    rw [this]
    exact leaveN_nodes _ w

theorem requirePathOrBelow_nodes (ok : Str → Dict Str → Bool) (req : List Str) (w w' : Writer)
    (h : requirePathOrBelow ok req w = .ok w') (hlb : NoLb req) : w'.nodes = w.nodes :=
  requirePath_nodes ok _ w w' h (fun g hg => hlb g ((commonPath_prefix_right _ _).subset hg))

/-- Appending text extends the last node or adds a node. -/
theorem frame_nodes_appendText (f : Frame) (s : Str) (hs : s ≠ []) :
    (f.appendText s).nodes = f.nodes ++ [some s] ∨
      ∃ pre r, f.nodes = pre ++ [some r] ∧ r ≠ [] ∧ (f.appendText s).nodes = pre ++ [some (r ++ s)] := by
  unfold Frame.appendText
  rw [if_neg (by simpa using hs)]
  split
  · next c hc =>
    obtain ⟨init, hi⟩ := List.getLast?_eq_some_iff.1 hc
    obtain ⟨t, a, x, cs, tl⟩ := c
    simp only [Frame.nodes, hi, List.dropLast_concat, nodesList_append, nodesList, Elem.withTail, Elem.tail]
    have e1 : node (some (orEmpty tl ++ s)) = [some (orEmpty tl ++ s)] := by simp [node, orEmpty, hs]
    have e2 : nodesElem (.mk t a x cs (some (orEmpty tl ++ s))) = nodesElem (.mk t a x cs tl) := by simp [nodesElem]
    rw [e1, e2]
    by_cases ht : orEmpty tl = []
    · left
      simp [node, ht]
    · right
      refine ⟨node f.text ++ (nodesList init ++ ((if t = c!"lb" then [none] else []) ++ nodesElem (.mk t a x cs tl))),
        orEmpty tl, ?_, ht, ?_⟩
      · simp [node, ht]
      · simp
  · next hc =>
    have hc : f.children = [] := by simpa using hc
    by_cases ht : orEmpty f.text = []
    · left
      simp only [orEmpty] at ht
      simp [Frame.nodes, hc, nodesList, node, ht, orEmpty, hs]
    · right
      refine ⟨[], orEmpty f.text, ?_, ht, ?_⟩
      · simp [Frame.nodes, hc, nodesList, node, ht]
      · simp [Frame.nodes, hc, nodesList, node, orEmpty, hs]

theorem writer_nodes_appendText (w : Writer) (s : Str) (hs : s ≠ []) :
    (w.appendText s).nodes = w.nodes ++ [some s] ∨
      ∃ pre r, w.nodes = pre ++ [some r] ∧ r ≠ [] ∧ (w.appendText s).nodes = pre ++ [some (r ++ s)] := by
  obtain ⟨cur, ps, path⟩ := w
  simp only [Writer.nodes, Writer.appendText]
  cases ps with
  | nil => exact frame_nodes_appendText cur s hs
  | cons p ps =>
    simp only [wNodes, (frame_appendText_tag cur s).1]
    rcases frame_nodes_appendText cur s hs with h | ⟨pre, r, h1, h2, h3⟩
    · left; rw [h]; simp
    · right
      refine ⟨wNodes p ps ++ (if cur.tag = c!"lb" then [none] else []) ++ pre, r, ?_, h2, ?_⟩
      · rw [h1]; simp
      · rw [h3]; simp

/-- Appending a token that meets the last character at a boundary. -/
theorem appendText_cut (cc : CharClass) (w : Writer) (s : Str) (hw : Whole cc s)
    (hb : ∀ x y, (flatNodes (cutNodes cc w.nodes)).getLast? = some (some x) → s.head? = some y →
      tokenBoundary cc x y = true) :
    cutNodes cc (w.appendText s).nodes = cutNodes cc w.nodes ++ [some s] := by
  have hs : s ≠ [] := by rintro rfl; simp [Whole, cutAt] at hw
  have e : cutNodes cc [some s] = [some s] := by
    have : cutAt (tokenBoundary cc) s = [s] := hw
    simp [cutNodes, this]
  rw [flatNodes_cutNodes] at hb
  rcases writer_nodes_appendText w s hs with h | ⟨pre, r, h1, h2, h3⟩
  · rw [h, cutNodes_append, e]
  · rw [h1, flatNodes_append] at hb
    rw [h3, h1, cutNodes_append, cutNodes_append, List.append_assoc]
    congr 1
    obtain ⟨x, hx⟩ : ∃ x, r.getLast? = some x := ⟨_, List.getLast?_eq_some_getLast h2⟩
    obtain ⟨y, hy⟩ : ∃ y, s.head? = some y := ⟨_, List.head?_eq_some_head hs⟩
    have hxy := hb x y (by
      have : flatNodes [some r] = r.map some := by simp [flatNodes]
      rw [this, List.getLast?_append, List.getLast?_map, hx]; rfl) hy
    have : cutAt (tokenBoundary cc) (r ++ s) = cutAt (tokenBoundary cc) r ++ cutAt (tokenBoundary cc) s :=
      cutAt_append _ r s x y hx hy hxy
    simp [cutNodes, this, show cutAt (tokenBoundary cc) s = [s] from hw]

/-- White space characters are not word characters. -/
def SpaceNoWord (cc : CharClass) : Prop := ∀ c, cc.isSpace c = true → cc.isWord c = false

theorem boundary_of_space_right {cc : CharClass} (hc : SpaceNoWord cc) {x y : Char} (h : cc.isSpace y = true) :
    tokenBoundary cc x y = true := by simp [tokenBoundary, hc y h]

theorem boundary_of_space_left {cc : CharClass} (hc : SpaceNoWord cc) {x y : Char} (h : cc.isSpace x = true) :
    tokenBoundary cc x y = true := by simp [tokenBoundary, hc x h]

theorem flushPending_cut (cfg : WriteCfg) (hc : SpaceNoWord cfg.cc) (req : List Str) (ss : List Str) (w w' : Writer)
    (h : flushPending cfg req ss w = .ok w') (hlb : NoLb req)
    (hss : ∀ s ∈ ss, Whole cfg.cc s ∧ space cfg.cc s = true) :
    cutNodes cfg.cc w'.nodes = cutNodes cfg.cc w.nodes ++ ss.map some := by
  induction ss generalizing w with
  | nil => simp only [flushPending] at h; cases h; simp
  | cons s ss ih =>
    simp only [flushPending] at h
    split at h
    · cases h
    · next w1 h1 =>
      obtain ⟨hs1, hs2⟩ := hss s (by simp)
      rw [ih _ h (fun t ht => hss t (by simp [ht])), appendText_cut cfg.cc w1 s hs1, requirePathOrBelow_nodes _ _ _ _ h1 hlb]
      · simp
      · intro x y _ hy
        exact boundary_of_space_right hc (List.all_eq_true.1 hs2 y (List.mem_of_head? hy))

/-- White space is held back until the next text. -/
def delaySpace (cc : CharClass) : List Str → List (Option Str) → List (Option Str)
  | pend, [] => pend.map some
  | pend, none :: r => none :: delaySpace cc pend r
  | pend, some s :: r =>
    if space cc s then delaySpace cc (pend ++ [s]) r else pend.map some ++ some s :: delaySpace cc [] r

/-- The state of the writer: pending white space is whole tokens, and the last character is white
space or that of the previous token of the line. -/
structure CutInv (cc : CharClass) (pre : List Str) (st : WState) : Prop where
  pending : ∀ s ∈ st.pending, Whole cc s ∧ space cc s = true
  last : ∀ x, (flatNodes (cutNodes cc st.w.nodes ++ st.pending.map some)).getLast? = some (some x) →
    cc.isSpace x = true ∨ ∃ s, pre.getLast? = some s ∧ s.getLast? = some x

theorem last_space {ns : List (Option Str)} {s : Str} (hs : s ≠ []) :
    (flatNodes (ns ++ [some s])).getLast? = s.getLast?.map some := by
  have : flatNodes [some s] = s.map some := by simp [flatNodes]
  rw [flatNodes_append, this, List.getLast?_append, List.getLast?_map]
  cases h : s.getLast? with
  | none => exact absurd (List.getLast?_eq_none_iff.1 h) hs
  | some x => rfl

theorem whole_ne_nil {cc : CharClass} {s : Str} (h : Whole cc s) : s ≠ [] := by
  rintro rfl; simp [Whole, cutAt] at h

theorem writeToken_cut (cfg : WriteCfg) (hc : SpaceNoWord cfg.cc) (st st' : WState) (t : Tok) (pre : List Str)
    (hw : Whole cfg.cc t.text) (hlb : TokNoLb cfg t)
    (hap : ∀ s x y, pre.getLast? = some s → s.getLast? = some x → t.text.head? = some y →
      tokenBoundary cfg.cc x y = true)
    (hi : CutInv cfg.cc pre st) (h : writeToken cfg st t = .ok st') :
    CutInv cfg.cc (pre ++ [t.text]) st' ∧
    ∀ rest, cutNodes cfg.cc st'.w.nodes ++ delaySpace cfg.cc st'.pending rest =
      cutNodes cfg.cc st.w.nodes ++ delaySpace cfg.cc st.pending (some t.text :: rest) := by
  have hne := whole_ne_nil hw
  rcases Bool.eq_false_or_eq_true (blank cfg.cc t) with hb | hb
  · unfold writeToken at h
    rw [writerTags_eq] at h
    simp only [strip_isEmpty_eq_blank, hb, if_true] at h
    cases h
    refine ⟨⟨?_, ?_⟩, ?_⟩
    · intro s hs
      rcases List.mem_append.1 hs with hs | hs
      · exact hi.pending s hs
      · rw [List.mem_singleton.1 hs]; exact ⟨hw, hb⟩
    · intro x hx
      simp only [List.map_append, List.map_cons, List.map_nil] at hx
      rw [← List.append_assoc, last_space hne] at hx
      left
      cases hl : t.text.getLast? with
      | none => rw [hl] at hx; cases hx
      | some z =>
        rw [hl] at hx
        cases hx
        exact List.all_eq_true.1 hb _ (List.mem_of_getLast? hl)
    · intro rest
      have hb' : space cfg.cc t.text = true := hb
      simp only [delaySpace, hb', if_true]
  · obtain ⟨w1, w2, w3, h1, h2, h3, rfl⟩ := writeToken_text_step cfg st st' t hb h
    have hlbt : NoLb (tokenPath cfg.mapping t) := hlb hb
    have hlbm : NoLb (mainPath cfg.mapping t) := fun f hf => hlbt f ((tokenPath_eq cfg.mapping t).subset hf)
    have hn1 : w1.nodes = st.w.nodes := by
      rcases h1 with ⟨_, h1⟩ | ⟨_, _, h1⟩ | ⟨_, _, _, h1⟩ | ⟨_, _, _, h1⟩
      · exact requirePath_nodes _ _ _ _ h1 (fun f hf => hlbm f ((List.dropLast_sublist _).subset hf))
      · exact requirePath_nodes _ _ _ _ h1 (fun f hf => by simp at hf)
      · refine requirePathOrBelow_nodes _ _ _ _ h1 (fun f hf => ?_)
        have hf := (List.dropLast_sublist _).subset hf
        by_cases hs : hasSub cfg.mapping t
        · rw [if_pos hs] at hf
          refine hlbt f ?_
          unfold tokenPath
          rw [if_pos hs]; exact hf
        · rw [if_neg hs] at hf; simp at hf
      · rw [h1]
    have e2 := flushPending_cut cfg hc _ _ _ _ h2 hlbt hi.pending
    have e3 := requirePath_nodes _ _ _ _ h3 hlbt
    have e4 := appendText_cut cfg.cc w3 t.text hw (by
      intro x y hx hy
      rw [e3, e2, hn1] at hx
      rcases hi.last x hx with h | ⟨s, hs1, hs2⟩
      · exact boundary_of_space_left hc h
      · exact hap s x y hs1 hs2 hy)
    rw [e3, e2, hn1] at e4
    refine ⟨⟨by simp, ?_⟩, ?_⟩
    · intro x hx
      simp only [List.map_nil, List.append_nil] at hx
      rw [e4, last_space hne] at hx
      right
      refine ⟨t.text, by simp, ?_⟩
      cases hl : t.text.getLast? with
      | none => rw [hl] at hx; cases hx
      | some z => rw [hl] at hx; cases hx; rfl
    · intro rest
      have hb' : ¬ space cfg.cc t.text = true := by
        show ¬ blank cfg.cc t = true
        rw [hb]; simp
      simp only [delaySpace, if_neg hb', e4]
      simp

theorem writeTokens_cut (cfg : WriteCfg) (hc : SpaceNoWord cfg.cc) (ts : List Tok) (st st' : WState) (pre : List Str)
    (hw : ∀ t ∈ ts, Whole cfg.cc t.text) (hlb : ∀ t ∈ ts, TokNoLb cfg t)
    (hap : Apart cfg.cc (pre ++ ts.map (·.text)))
    (hi : CutInv cfg.cc pre st) (h : writeTokens cfg st ts = .ok st') :
    CutInv cfg.cc (pre ++ ts.map (·.text)) st' ∧
    ∀ rest, cutNodes cfg.cc st'.w.nodes ++ delaySpace cfg.cc st'.pending rest =
      cutNodes cfg.cc st.w.nodes ++ delaySpace cfg.cc st.pending (ts.map (fun t => some t.text) ++ rest) := by
  induction ts generalizing st pre with
  | nil => simp only [writeTokens] at h; cases h; exact ⟨by simpa using hi, fun rest => by simp⟩
  | cons t ts ih =>
    simp only [writeTokens] at h
    split at h
    · cases h
    · next st1 h1 =>
      obtain ⟨i1, i2⟩ := writeToken_cut cfg hc st st1 t pre (hw t (by simp)) (hlb t (by simp)) (by
        intro s x y hs hx hy
        obtain ⟨init, rfl⟩ := List.getLast?_eq_some_iff.1 hs
        exact hap init s t.text (ts.map (·.text)) x y (by simp) hx hy) hi h1
      obtain ⟨j1, j2⟩ := ih st1 (pre ++ [t.text]) (fun u hu => hw u (by simp [hu])) (fun u hu => hlb u (by simp [hu]))
        (by simpa using hap) i1 h
      refine ⟨by simpa using j1, fun rest => ?_⟩
      rw [j2, i2]; simp

/-- The texts of the lines with breaks between them. -/
def breakTexts (first : Bool) : List (List Tok) → List (Option Str)
  | [] => []
  | l :: ls => (if first then [] else [none]) ++ l.map (fun t => some t.text) ++ breakTexts false ls

theorem writer_nodes_lb (w : Writer) : (w.append lbElem).nodes = w.nodes ++ [none] := by
  simp only [Writer.nodes, Writer.append, wNodes_append]
  simp [nodesList, lbElem, lbTag, nodesElem, node, orEmpty]

theorem writeLines_cut (cfg : WriteCfg) (hc : SpaceNoWord cfg.cc) (ls : List (List Tok)) (first : Bool) (st st' : WState)
    (pre : List Str)
    (hw : ∀ l ∈ ls, ∀ t ∈ l, Whole cfg.cc t.text) (hlb : ∀ l ∈ ls, ∀ t ∈ l, TokNoLb cfg t)
    (hap : ∀ l ∈ ls, Apart cfg.cc (l.map (·.text)))
    (hi : CutInv cfg.cc pre st) (hfirst : first = true → pre = [])
    (h : writeLines cfg first st ls = .ok st') :
    (∃ pre', CutInv cfg.cc pre' st') ∧
    cutNodes cfg.cc st'.w.nodes ++ delaySpace cfg.cc st'.pending [] =
      cutNodes cfg.cc st.w.nodes ++ delaySpace cfg.cc st.pending (breakTexts first ls) := by
  induction ls generalizing st first pre with
  | nil => simp only [writeLines] at h; cases h; exact ⟨⟨pre, hi⟩, rfl⟩
  | cons l ls ih =>
    simp only [writeLines] at h
    split at h
    · cases h
    · next st1 h1 =>
      have h0 : CutInv cfg.cc [] (if first = true then st else { st with w := st.w.append lbElem }) ∧
          ∀ rest, cutNodes cfg.cc (if first = true then st else { st with w := st.w.append lbElem }).w.nodes ++
            delaySpace cfg.cc (if first = true then st else { st with w := st.w.append lbElem }).pending rest =
            cutNodes cfg.cc st.w.nodes ++ delaySpace cfg.cc st.pending ((if first = true then [] else [none]) ++ rest) := by
        by_cases hf : first = true
        · have := hfirst hf
          subst this
          simp only [if_pos hf]
          exact ⟨hi, fun rest => rfl⟩
        · simp only [if_neg hf]
          have en : cutNodes cfg.cc (st.w.append lbElem).nodes = cutNodes cfg.cc st.w.nodes ++ [none] := by
            rw [writer_nodes_lb, cutNodes_append]; rfl
          refine ⟨⟨hi.pending, ?_⟩, fun rest => ?_⟩
          · intro x hx
            rw [en] at hx
            left
            rcases List.eq_nil_or_concat st.pending with hp | ⟨init, s, hp⟩
            · rw [hp] at hx
              simp [flatNodes] at hx
            · have hs := hi.pending s (by rw [hp]; simp)
              rw [hp] at hx
              simp only [List.concat_eq_append, List.map_append, List.map_cons, List.map_nil] at hx
              rw [← List.append_assoc, last_space (whole_ne_nil hs.1)] at hx
              cases hl : s.getLast? with
              | none => rw [hl] at hx; cases hx
              | some z =>
                rw [hl] at hx
                cases hx
                exact List.all_eq_true.1 hs.2 _ (List.mem_of_getLast? hl)
          · rw [en]
            simp [delaySpace]
      obtain ⟨i1, i2⟩ := writeTokens_cut cfg hc l _ st1 [] (hw l (by simp)) (hlb l (by simp)) (by
        simpa using hap l (by simp)) h0.1 h1
      obtain ⟨j1, j2⟩ := ih false st1 ([] ++ l.map (·.text)) (fun m hm => hw m (by simp [hm])) (fun m hm => hlb m (by simp [hm]))
        (fun m hm => hap m (by simp [hm])) i1 (by simp) h
      refine ⟨j1, ?_⟩
      rw [j2, i2, h0.2]
      simp [breakTexts]

theorem wNodes_finish (w : Writer) : nodesElem w.finish.close = w.nodes := by
  have : (w.leaveN w.parents.length).parents = [] := by
    rw [(leaveN_spec _ w).2.2.2.2]; simp
  unfold Writer.finish
  rw [← leaveN_nodes w.parents.length w]
  generalize w.leaveN w.parents.length = v at *
  obtain ⟨cur, ps, path⟩ := v
  simp only at this
  subst this
  simp [Writer.nodes, wNodes, Frame.nodes, Frame.close, nodesElem]

/-- The tokens of the written element. -/
theorem linesToTei_cut (cfg : WriteCfg) (hc : SpaceNoWord cfg.cc) (tag : Str) (attrib : Dict Str) (f : Frame)
    (lines : List (List Tok)) (hw : ∀ l ∈ lines, ∀ t ∈ l, Whole cfg.cc t.text)
    (hlb : ∀ l ∈ lines, ∀ t ∈ l, TokNoLb cfg t)
    (hap : ∀ l ∈ lines, Apart cfg.cc (l.map (·.text)))
    (h : linesToTei cfg ⟨tag, attrib, none, []⟩ lines = .ok f) :
    cutNodes cfg.cc (nodesElem f.close) = delaySpace cfg.cc [] (breakTexts true lines) := by
  unfold linesToTei at h
  split at h
  · cases h
  · next st hst =>
    split at h
    · cases h
    · next w hw' =>
      cases h
      have e0 : (⟨⟨tag, attrib, none, []⟩, [], []⟩ : Writer).nodes = [] := rfl
      obtain ⟨⟨pre, j1⟩, j2⟩ := writeLines_cut cfg hc lines true _ st [] hw hlb hap ⟨by simp, by
        intro x hx
        simp [e0, cutNodes, flatNodes] at hx⟩ (by simp) hst
      rw [e0] at j2
      have := flushPending_cut cfg hc _ _ _ _ hw' (fun f hf => by simp at hf) j1.pending
      rw [wNodes_finish, this]
      simpa [delaySpace, cutNodes] using j2

/-! ### Loading -/

/-- Splits a stream of tokens at the breaks. -/
def splitTokens : List (Option Str) → List (List Str)
  | [] => [[]]
  | none :: r => [] :: splitTokens r
  | some s :: r =>
    match splitTokens r with
    | [] => [[s]]
    | l :: ls => (s :: l) :: ls

theorem splitTokens_texts (ss : List Str) (r : List (Option Str)) :
    splitTokens (ss.map some ++ none :: r) = ss :: splitTokens r := by
  induction ss with
  | nil => rfl
  | cons s ss ih => simp [splitTokens, ih]

theorem splitTokens_end (ss : List Str) : splitTokens (ss.map some) = [ss] := by
  induction ss with
  | nil => rfl
  | cons s ss ih => simp [splitTokens, ih]

/-- The texts of finished lines, each followed by a break. -/
def lineStream (ls : List (List Tok)) : List (Option Str) := ls.flatMap (fun l => l.map (fun t => some t.text) ++ [none])

def bufStream (b : Buf) : List (Option Str) := b.tokens.map (fun t => some t.text)

theorem splitTokens_lines (ls : List (List Tok)) (ss : List Str) :
    splitTokens (lineStream ls ++ ss.map some) = ls.map (fun l => l.map (·.text)) ++ [ss] := by
  induction ls with
  | nil => simpa [lineStream] using splitTokens_end ss
  | cons l ls ih =>
    have e : lineStream (l :: ls) ++ ss.map some =
        (l.map (·.text)).map some ++ none :: (lineStream ls ++ ss.map some) := by
      simp [lineStream, Function.comp_def]
    rw [e, splitTokens_texts, ih]; rfl

theorem bufStream_appendTokens (cc : CharClass) (ss : List Str) (b : Buf) :
    bufStream (b.appendTokens cc ss) = bufStream b ++ ss.map some := by
  unfold Buf.appendTokens
  induction ss generalizing b with
  | nil => simp
  | cons s ss ih =>
    rw [List.foldl_cons, ih]
    have : bufStream (b.appendToken cc s) = bufStream b ++ [some s] := by
      unfold Buf.appendToken bufStream Buf.tokens
      cases h : b.rev with
      | nil => simp [toTextToken_text]
      | cons t ts => simp [toTextToken_text]
    rw [this]; simp

theorem bufStream_appendText (cc : CharClass) (b : Buf) (x : Option Str) :
    bufStream (b.appendText cc x) = bufStream b ++ cutNodes cc (node x) := by
  cases x with
  | none => simp [Buf.appendText, node, orEmpty, cutNodes]
  | some s =>
    simp only [Buf.appendText]
    split
    · next h =>
      have : s = [] := by simpa using h
      subst this
      simp [node, orEmpty, cutNodes]
    · next h =>
      have : s ≠ [] := by simpa using h
      rw [bufStream_appendTokens, tokenizeText_eq_cutAt]
      simp [node, orEmpty, this, cutNodes]

theorem lineStream_append (a b : List (List Tok)) : lineStream (a ++ b) = lineStream a ++ lineStream b := by
  simp [lineStream]

mutual
theorem extractElem_stream (cc : CharClass) (rp : List Str) (e : Elem) (path : List Str) (b : Buf)
    (r : List (List Tok) × Buf) (h : extractElem cc rp e path b = .ok r) :
    bufStream b ++ cutNodes cc (nodesElem e) ++ cutNodes cc (node e.tail) = lineStream r.1 ++ bufStream r.2 := by
  match e with
  | .mk tg a x cs tl =>
    simp only [extractElem] at h
    split at h
    · cases h
    · next lines b3 hc =>
      cases h
      have := extractChildren_stream cc rp cs path _ _ hc
      rw [bufStream_appendText] at this
      have e1 : ∀ (p q : Bool) (u : Option Str), bufStream (if p = true then
          if q = true then b.setNextSub u else b.setNextTag u else b) = bufStream b := by
        intro p q u; split
        · split <;> rfl
        · rfl
      rw [e1] at this
      have e2 : ∀ q : Bool, bufStream (if q = true then b3.resetNextSub else b3.resetNextTag)
          = bufStream b3 := by
        intro q; split <;> rfl
      simp only [bufStream_appendText, e2, nodesElem, Elem.tail, cutNodes_append]
      simp only [List.append_assoc] at this ⊢
      rw [← List.append_assoc (lineStream lines), ← this]
      simp
theorem extractChildren_stream (cc : CharClass) (rp : List Str) (es : List Elem) (path : List Str)
    (b : Buf) (r : List (List Tok) × Buf) (h : extractChildren cc rp es path b = .ok r) :
    bufStream b ++ cutNodes cc (nodesList es) = lineStream r.1 ++ bufStream r.2 := by
  match es with
  | [] => simp only [extractChildren] at h; cases h; simp [nodesList, cutNodes, lineStream]
  | .mk tag attrib text children tail :: es =>
    simp only [extractChildren] at h
    split at h
    · cases h
    · split at h
      · cases h
      · next lines1 b2 h1 =>
        split at h
        · cases h
        · next lines2 b3 h2 =>
          cases h
          have i1 := extractElem_stream cc rp _ _ _ _ h1
          have i2 := extractChildren_stream cc rp es path _ _ h2
          simp only [nodesList, lineStream_append, cutNodes_append]
          have e1 : bufStream b ++ cutNodes cc (if tag = c!"lb" then [none] else []) =
              lineStream (if tag = lbTag then [b.flush.1] else []) ++
              bufStream (if tag = lbTag then b.flush.2 else b) := by
            by_cases hl : tag = lbTag
            · have hl' : tag = c!"lb" := hl
              simp [hl, bufStream, lineStream, Buf.flush, Buf.tokens, lbTag, cutNodes]
            · have hl' : ¬ tag = c!"lb" := hl
              simp [hl, hl', cutNodes, lineStream]
          simp only at i1 i2
          have e3 : (Elem.mk tag attrib text children tail).tail = tail := rfl
          rw [e3] at i1
          calc _ = (bufStream b ++ cutNodes cc (if tag = c!"lb" then [none] else [])) ++
                (cutNodes cc (nodesElem (.mk tag attrib text children tail)) ++
                  (cutNodes cc (node tail) ++ cutNodes cc (nodesList es))) := by
                simp only [List.append_assoc]
            _ = lineStream (if tag = lbTag then [b.flush.1] else []) ++
                ((bufStream (if tag = lbTag then b.flush.2 else b) ++
                cutNodes cc (nodesElem (.mk tag attrib text children tail)) ++ cutNodes cc (node tail)) ++
                  cutNodes cc (nodesList es)) := by
                rw [e1]; simp only [List.append_assoc]
            _ = _ := by rw [i1]; simp only [List.append_assoc]; rw [i2]
end

/-- The token texts of the lines of the containers. -/
theorem extractContainersFrom_stream (cc : CharClass) (rp : List Str) (es : List Elem) (b : Buf) (ls : List (List Tok))
    (h : extractContainersFrom cc rp es b = .ok ls) (hb : b.rev = []) :
    ls.map (fun l => l.map (·.text)) = es.flatMap (fun e =>
      dropFinalNoTokens (splitTokens (cutNodes cc (nodesElem e) ++ cutNodes cc (node e.tail)))) := by
  induction es generalizing b ls with
  | nil => simp only [extractContainersFrom] at h; cases h; rfl
  | cons e es ih =>
    simp only [extractContainersFrom] at h
    split at h
    · cases h
    · next lines b1 h1 =>
      split at h
      · cases h
      · next rest h2 =>
        cases h
        have hr := ih _ _ h2 (by
          split
          · next hh => simpa using hh
          · rfl)
        have hf := extractElem_stream cc rp e [] _ _ h1
        simp only at hf
        have hb0 : bufStream b = [] := by simp [bufStream, Buf.tokens, hb]
        rw [hb0, List.nil_append] at hf
        have e1 : bufStream b1 = (b1.tokens.map (·.text)).map some := by simp [bufStream]
        rw [List.flatMap_cons, ← hr, hf, e1, splitTokens_lines]
        cases hrev : b1.rev with
        | nil => simp [Buf.tokens, hrev, dropFinalNoTokens]
        | cons t ts => simp [Buf.tokens, hrev, dropFinalNoTokens, Buf.flush]

/-- The token texts of the lines of one container. -/
theorem extractContainers_stream (cc : CharClass) (rp : List Str) (e : Elem) (ls : List (List Tok))
    (h : extractContainers cc rp [e] = .ok ls) :
    ls.map (fun l => l.map (·.text)) =
      dropFinalNoTokens (splitTokens (cutNodes cc (nodesElem e) ++ cutNodes cc (node e.tail))) := by
  have := extractContainersFrom_stream cc rp [e] Buf.empty ls h rfl
  simpa using this

theorem mem_splitTokens (ns : List (Option Str)) : ∀ l ∈ splitTokens ns, ∀ s ∈ l, some s ∈ ns := by
  induction ns with
  | nil => intro l hl s hs; simp [splitTokens] at hl; simp [hl] at hs
  | cons n ns ih =>
    intro l hl s hs
    cases n with
    | none =>
      simp only [splitTokens, List.mem_cons] at hl
      rcases hl with rfl | hl
      · simp at hs
      · exact List.mem_cons_of_mem _ (ih l hl s hs)
    | some x =>
      simp only [splitTokens] at hl
      split at hl
      · rw [List.mem_singleton.1 hl] at hs
        rw [List.mem_singleton.1 hs]; simp
      · next m ms hm =>
        rcases List.mem_cons.1 hl with rfl | hl
        · rcases List.mem_cons.1 hs with rfl | hs
          · simp
          · exact List.mem_cons_of_mem _ (ih m (by simp [hm]) s hs)
        · exact List.mem_cons_of_mem _ (ih l (by simp [hm, hl]) s hs)

/-- The parts of a text cannot be cut any further. -/
theorem cutAt_whole (b : Char → Char → Bool) (s : Str) : ∀ w ∈ cutAt b s, cutAt b w = [w] ∧ w ≠ [] := by
  induction s with
  | nil => simp [cutAt]
  | cons c s ih =>
    cases s with
    | nil => intro w hw; simp [cutAt] at hw; subst hw; simp [cutAt]
    | cons d s =>
      intro w hw
      rw [cutAt_cons] at hw
      split at hw
      · rcases List.mem_cons.1 hw with rfl | hw
        · simp [cutAt]
        · exact ih w hw
      · next hb =>
        obtain ⟨v, vs, hv, hd⟩ : ∃ v vs, cutAt b (d :: s) = v :: vs ∧ v.head? = some d := by
          cases s with
          | nil => exact ⟨[d], [], by simp [cutAt], rfl⟩
          | cons e s =>
            rw [cutAt_cons]
            split
            · exact ⟨[d], _, rfl, rfl⟩
            · cases hc : cutAt b (e :: s) with
              | nil => exact ⟨[d], [], rfl, rfl⟩
              | cons u us => exact ⟨d :: u, us, rfl, rfl⟩
        rw [hv] at hw
        rcases List.mem_cons.1 hw with rfl | hw
        · have hw' := (ih v (by simp [hv])).1
          cases v with
          | nil => simp at hd
          | cons d' v =>
            simp at hd
            subst hd
            rw [cutAt_cons, if_neg hb, hw']
            simp [consHead]
        · exact ih w (by simp [hv, hw])

theorem mem_cutNodes_whole (cc : CharClass) (ns : List (Option Str)) (s : Str) (h : some s ∈ cutNodes cc ns) :
    Whole cc s := by
  obtain ⟨n, _, hn⟩ := List.mem_flatMap.1 h
  cases n with
  | none => simp at hn
  | some t =>
    obtain ⟨w, hw, e⟩ := List.mem_map.1 hn
    cases e
    exact (cutAt_whole _ _ _ hw).1

theorem sameBut_lineToks_texts {d d' : Doc} (h : SameBut d d') :
    d'.lineToks.map (fun l => l.map (·.text)) = d.lineToks.map (fun l => l.map (·.text)) := by
  simp only [Doc.lineToks, h.lines, List.map_map]
  apply List.map_congr_left
  intro l _
  simp only [Function.comp_apply, List.map_map]
  apply List.map_congr_left
  intro j _
  exact h.text j

/-- The tokens of a loaded document. -/
theorem loadDoc_texts (cfg : DocCfg) (root : Elem) (d : Doc) (h : loadDoc cfg root = .ok d) :
    ∃ lines, extractContainers cfg.cc (cfg.mapping.map (·.2)) (findAll cfg.containerPath root) = .ok lines ∧
      tokenTexts d = lines.map (fun l => l.map (·.text)) := by
  unfold loadDoc at h
  split at h
  · cases h
  · next lines hl =>
    refine ⟨lines, hl, ?_⟩
    simp only [Except.ok.injEq] at h
    have hsame : SameBut (Doc.ofLines lines) d := by
      rw [← h]
      refine SameBut.trans ?_ (sameBut_resetCurrentTags _)
      split
      · exact sameBut_preserveCurrentTags _ _
      · exact .refl _
    have e := sameBut_lineToks_texts hsame
    rw [lineToks_ofLines] at e
    exact e

/-! ### Moving white space -/

theorem takeWhile_stop {α : Type} (p : α → Bool) (x y : List α) (s : α) (h : p s = false) :
    (x ++ s :: y).takeWhile p = x.takeWhile p ∧ (x ++ s :: y).dropWhile p = x.dropWhile p ++ s :: y := by
  induction x with
  | nil => simp [h]
  | cons a x ih =>
    by_cases ha : p a = true
    · simp [ha, ih]
    · simp [ha]

theorem trailing_text (cc : CharClass) (a l : List Str) (s : Str) (h : space cc s = false) :
    trailing cc (a ++ s :: l) = trailing cc l ∧ withoutTrailing cc (a ++ s :: l) = a ++ s :: withoutTrailing cc l := by
  unfold trailing withoutTrailing
  have := takeWhile_stop (space cc) l.reverse a.reverse s h
  have e : (a ++ s :: l).reverse = l.reverse ++ s :: a.reverse := by simp
  rw [e, this.1, this.2]
  simp

theorem takeWhile_all {α : Type} (p : α → Bool) (l : List α) (h : ∀ s ∈ l, p s = true) :
    l.takeWhile p = l ∧ l.dropWhile p = [] := by
  induction l with
  | nil => simp
  | cons a l ih =>
    have := ih (fun s hs => h s (by simp [hs]))
    simp [h a (by simp), this]

theorem trailing_all {cc : CharClass} {l : List Str} (h : ∀ s ∈ l, space cc s = true) :
    trailing cc l = l ∧ withoutTrailing cc l = [] := by
  unfold trailing withoutTrailing
  have := takeWhile_all (space cc) l.reverse (fun s hs => h s (List.mem_reverse.1 hs))
  rw [this.1, this.2]; simp

theorem trailing_space (cc : CharClass) (l : List Str) : ∀ s ∈ trailing cc l, space cc s = true := by
  intro s hs
  unfold trailing at hs
  have := List.all_takeWhile (p := space cc) (l := l.reverse)
  exact List.all_eq_true.1 this s (List.mem_reverse.1 hs)

theorem withoutTrailing_append (cc : CharClass) (l : List Str) : withoutTrailing cc l ++ trailing cc l = l := by
  unfold withoutTrailing trailing
  rw [← List.reverse_append, List.takeWhile_append_dropWhile, List.reverse_reverse]

theorem delaySpace_line (cc : CharClass) (l pend : List Str) (r : List (Option Str))
    (hp : ∀ s ∈ pend, space cc s = true) :
    delaySpace cc pend (l.map some ++ none :: r) =
      (withoutTrailing cc (pend ++ l)).map some ++ none :: delaySpace cc (trailing cc (pend ++ l)) r := by
  induction l generalizing pend with
  | nil =>
    obtain ⟨h1, h2⟩ := trailing_all hp
    simp [delaySpace, h1, h2]
  | cons s l ih =>
    simp only [List.map_cons, List.cons_append, delaySpace]
    rcases Bool.eq_false_or_eq_true (space cc s) with hs | hs
    · rw [if_pos hs, ih]
      · simp
      · intro t ht
        rcases List.mem_append.1 ht with ht | ht
        · exact hp t ht
        · rw [List.mem_singleton.1 ht]; exact hs
    · obtain ⟨h1, h2⟩ := trailing_text cc pend l s hs
      rw [if_neg (by simp [hs]), ih [] (by simp), h1, h2]
      simp

theorem delaySpace_last (cc : CharClass) (l pend : List Str) :
    delaySpace cc pend (l.map some) = (pend ++ l).map some := by
  induction l generalizing pend with
  | nil => simp [delaySpace]
  | cons s l ih =>
    simp only [List.map_cons, delaySpace]
    split
    · rw [ih]; simp
    · rw [ih]; simp

theorem splitTokens_delay (cc : CharClass) (l : List Tok) (ls : List (List Tok)) (pend : List Str)
    (hp : ∀ s ∈ pend, space cc s = true) :
    splitTokens (delaySpace cc pend (breakTexts true (l :: ls))) =
      moveSpace cc pend ((l :: ls).map (fun l => l.map (·.text))) := by
  induction ls generalizing l pend with
  | nil =>
    have e : breakTexts true [l] = (l.map (·.text)).map some := by simp [breakTexts]
    rw [e, delaySpace_last, splitTokens_end]
    rfl
  | cons m ls ih =>
    have e : breakTexts true (l :: m :: ls) = (l.map (·.text)).map some ++ none :: breakTexts true (m :: ls) := by
      simp [breakTexts]
    rw [e, delaySpace_line cc _ _ _ hp, splitTokens_texts, ih m _ (trailing_space cc _)]
    rfl

/-- Moving white space does not change the other tokens. -/
theorem moveSpace_text (cc : CharClass) (ls : List (List Str)) (pend : List Str)
    (hp : ∀ s ∈ pend, space cc s = true) :
    (moveSpace cc pend ls).map (fun l => l.filter (fun s => !space cc s)) =
      ls.map (fun l => l.filter (fun s => !space cc s)) := by
  have key : ∀ l : List Str, (∀ s ∈ l, space cc s = true) → l.filter (fun s => !space cc s) = [] := by
    intro l hl
    rw [List.filter_eq_nil_iff]
    intro s hs; simp [hl s hs]
  induction ls generalizing pend with
  | nil => rfl
  | cons l ls ih =>
    cases ls with
    | nil => simp [moveSpace, key pend hp]
    | cons m ls =>
      rw [moveSpace, List.map_cons, ih _ (trailing_space cc _), List.map_cons]
      congr 1
      have h2 := key _ (trailing_space cc (pend ++ l))
      have h3 := congrArg (List.filter (fun s => !space cc s)) (withoutTrailing_append cc (pend ++ l))
      rw [List.filter_append, h2, List.filter_append, key pend hp] at h3
      simpa using h3

theorem moveSpace_ne_nil (cc : CharClass) (l : List Str) (ls : List (List Str)) (pend : List Str) :
    moveSpace cc pend (l :: ls) ≠ [] := by
  cases ls <;> simp [moveSpace]

theorem moveSpace_last (cc : CharClass) (ls : List (List Str)) (pend : List Str)
    (h : (moveSpace cc pend ls).getLast? = some []) : ls.getLast? = some [] := by
  induction ls generalizing pend with
  | nil => simp [moveSpace] at h
  | cons l ls ih =>
    cases ls with
    | nil =>
      simp [moveSpace] at h
      simp [h]
    | cons m ls =>
      rw [moveSpace] at h
      rw [List.getLast?_cons_cons]
      refine ih (trailing cc (pend ++ l)) ?_
      cases hm : moveSpace cc (trailing cc (pend ++ l)) (m :: ls) with
      | nil => exact absurd hm (moveSpace_ne_nil _ _ _ _)
      | cons x xs => rw [hm, List.getLast?_cons_cons] at h; exact h

/-! ### Tokens with labels -/

theorem labelled_inj (cc : CharClass) (A B : List Tok) (ha : ∀ t ∈ A, blank cc t = false)
    (hb : ∀ t ∈ B, blank cc t = false) (ht : A.map (·.text) = B.map (·.text))
    (hl : labelledChars cc A = labelledChars cc B) :
    A.map mainValue = B.map mainValue := by
  induction A generalizing B with
  | nil =>
    cases B with
    | nil => rfl
    | cons b B => simp at ht
  | cons a A ih =>
    cases B with
    | nil => simp at ht
    | cons b B =>
      simp only [List.map_cons, List.cons.injEq] at ht
      unfold labelledChars at hl
      rw [List.flatMap_cons, List.flatMap_cons] at hl
      have hinj := List.append_inj hl (by simp [ht.1])
      have h2 := ih B (fun t h => ha t (by simp [h])) (fun t h => hb t (by simp [h])) ht.2 hinj.2
      obtain ⟨ch, h3, h4⟩ := exists_char_of_text (hb b (by simp))
      have h5 : (ch, mainValue a) ∈ (a.text.filter (fun c => !cc.isSpace c)).map (fun c => (c, mainValue a)) :=
        List.mem_map.2 ⟨ch, List.mem_filter.2 ⟨ht.1 ▸ h3, by simp [h4]⟩, rfl⟩
      rw [hinj.1] at h5
      obtain ⟨c2, _, h6⟩ := List.mem_map.1 h5
      simp only [List.map_cons, h2]
      rw [(Prod.mk.inj h6).2]

theorem labelledChars_filter (cc : CharClass) (ts : List Tok) :
    labelledChars cc (ts.filter (fun t => !blank cc t)) = labelledChars cc ts := by
  induction ts with
  | nil => rfl
  | cons t ts ih =>
    unfold labelledChars at ih ⊢
    rw [List.flatMap_cons, ← ih]
    rcases Bool.eq_false_or_eq_true (blank cc t) with h | h
    · have : t.text.filter (fun c => !cc.isSpace c) = [] := by
        rw [List.filter_eq_nil_iff]
        intro c hc
        simp [List.all_eq_true.1 h c hc]
      simp [h, this]
    · simp [h]

theorem zip_lines {α β γ : Type} (f : α → β) (g : α → γ) (A B : List (List α))
    (h1 : A.map (fun l => l.map f) = B.map (fun l => l.map f))
    (h2 : A.flatten.map g = B.flatten.map g) :
    A.map (fun l => l.map (fun x => (f x, g x))) = B.map (fun l => l.map (fun x => (f x, g x))) := by
  induction A generalizing B with
  | nil =>
    cases B with
    | nil => rfl
    | cons b B => simp at h1
  | cons a A ih =>
    cases B with
    | nil => simp at h1
    | cons b B =>
      simp only [List.map_cons, List.cons.injEq] at h1
      have hlen : a.length = b.length := by
        have := congrArg List.length h1.1
        simpa using this
      rw [List.flatten_cons, List.flatten_cons, List.map_append, List.map_append] at h2
      have hinj := List.append_inj h2 (by simp [hlen])
      simp only [List.map_cons, List.cons.injEq]
      refine ⟨?_, ih B h1.2 hinj.2⟩
      have e : ∀ l : List α, l.map (fun x => (f x, g x)) = (l.map f).zip (l.map g) := by
        intro l
        induction l with
        | nil => rfl
        | cons x l ih => simp [ih]
      rw [e, e, h1.1, hinj.1]

theorem labelledLines_eq (cc : CharClass) (d' d : Doc)
    (h2 : (tokenTexts d').map (fun l => l.filter (fun s => !space cc s)) =
      (tokenTexts d).map (fun l => l.filter (fun s => !space cc s)))
    (h4 : labelledText cc d' = labelledText cc d) : labelledLines cc d' = labelledLines cc d := by
  have e1 : ∀ d : Doc, (tokenTexts d).map (fun l => l.filter (fun s => !space cc s)) =
      (d.lineToks.map (fun l => l.filter (fun t => !blank cc t))).map (fun l => l.map (·.text)) := by
    intro d
    unfold tokenTexts
    rw [List.map_map, List.map_map]
    apply List.map_congr_left
    intro l _
    simp only [Function.comp_apply, List.filter_map]
    rfl
  have e2 : ∀ d : Doc, (d.lineToks.map (fun l => l.filter (fun t => !blank cc t))).flatten =
      d.lineToks.flatten.filter (fun t => !blank cc t) := by
    intro d
    rw [List.filter_flatten]
  have e3 : ∀ d : Doc, labelledLines cc d =
      (d.lineToks.map (fun l => l.filter (fun t => !blank cc t))).map (fun l => l.map (fun t => (t.text, mainValue t))) := by
    intro d; unfold labelledLines; rw [List.map_map]; rfl
  rw [e3, e3]
  rw [e1, e1] at h2
  refine zip_lines _ _ _ _ h2 ?_
  rw [e2, e2]
  refine labelled_inj cc _ _ ?_ ?_ ?_ ?_
  · intro t ht; simpa using (List.mem_filter.1 ht).2
  · intro t ht; simpa using (List.mem_filter.1 ht).2
  · have := congrArg List.flatten h2
    rwa [← List.map_flatten, ← List.map_flatten, e2, e2] at this
  · rw [labelledChars_filter, labelledChars_filter]; exact h4

/-! ### Plain containers -/

theorem cutAt_head (b : Char → Char → Bool) (d : Char) (s : Str) :
    ∃ v vs, cutAt b (d :: s) = v :: vs ∧ v.head? = some d := by
  cases s with
  | nil => exact ⟨[d], [], by simp [cutAt], rfl⟩
  | cons e s =>
    rw [cutAt_cons]
    split
    · exact ⟨[d], _, rfl, rfl⟩
    · cases hc : cutAt b (e :: s) with
      | nil => exact ⟨[d], [], rfl, rfl⟩
      | cons u us => exact ⟨d :: u, us, rfl, rfl⟩

/-- The parts of a text meet at boundaries. -/
theorem cutAt_apart (b : Char → Char → Bool) (s : Str) (pre : List Str) (v w : Str) (post : List Str) (x y : Char)
    (h : cutAt b s = pre ++ v :: w :: post) (hx : v.getLast? = some x) (hy : w.head? = some y) : b x y = true := by
  induction s generalizing pre v with
  | nil => simp [cutAt] at h
  | cons c s ih =>
    cases s with
    | nil =>
      simp only [cutAt] at h
      have := congrArg List.length h
      simp at this
      omega
    | cons d s =>
      rw [cutAt_cons] at h
      obtain ⟨u, us, hu, hd⟩ := cutAt_head b d s
      split at h
      · next hb =>
        cases pre with
        | nil =>
          simp only [List.nil_append, List.cons.injEq] at h
          rw [hu] at h
          obtain ⟨h1, h2⟩ := h
          subst h1
          have hw : u = w := (List.cons.inj h2).1
          rw [hw, hy] at hd
          simp at hx hd
          rw [← hx, hd]; exact hb
        | cons p pre =>
          simp only [List.cons_append, List.cons.injEq] at h
          exact ih pre v h.2 hx
      · rw [hu] at h
        simp only [consHead] at h
        cases pre with
        | nil =>
          simp only [List.nil_append, List.cons.injEq] at h
          obtain ⟨h1, h2⟩ := h
          refine ih [] u (by rw [hu, h2]; rfl) ?_
          rw [← h1] at hx
          cases u with
          | nil => simp at hd
          | cons a u => simpa using hx
        | cons p pre =>
          simp only [List.cons_append, List.cons.injEq] at h
          exact ih (u :: pre) v (by rw [hu, h.2]; rfl) hx

theorem splitTokens_plain (cc : CharClass) (es : List Elem)
    (hes : ∀ e ∈ es, e.tag = c!"lb" ∧ e.text = none ∧ e.children = []) (s : Str) (x : Option Str)
    (hx : node x = [] ∨ node x = [some s]) :
    ∀ l ∈ splitTokens (cutNodes cc (node x ++ nodesList es)), ∃ s, l = cutAt (tokenBoundary cc) s := by
  induction es generalizing s x with
  | nil =>
    intro l hl
    rcases hx with hx | hx
    · rw [hx] at hl
      simp [nodesList, cutNodes, splitTokens] at hl
      exact ⟨[], by simp [hl, cutAt]⟩
    · rw [hx] at hl
      have : cutNodes cc ([some s] ++ nodesList []) = (cutAt (tokenBoundary cc) s).map some := by
        simp [nodesList, cutNodes]
      rw [this, splitTokens_end] at hl
      exact ⟨s, List.mem_singleton.1 hl⟩
  | cons e es ih =>
    intro l hl
    obtain ⟨h1, h2, h3⟩ := hes e (by simp)
    obtain ⟨t, a, tx, cs, tl⟩ := e
    simp only [Elem.tag, Elem.text, Elem.children] at h1 h2 h3
    subst h1 h2 h3
    have hn : nodesList (.mk c!"lb" a none [] tl :: es) = none :: (node tl ++ nodesList es) := by
      simp [nodesList, nodesElem, node, orEmpty]
    have htl : node tl = [] ∨ node tl = [some (orEmpty tl)] := by
      unfold node; split
      · exact .inl rfl
      · exact .inr rfl
    have key : ∃ ss, cutNodes cc (node x ++ nodesList (.mk c!"lb" a none [] tl :: es)) =
        (cutAt (tokenBoundary cc) ss).map some ++ none :: cutNodes cc (node tl ++ nodesList es) := by
      rw [hn]
      rcases hx with hx | hx
      · exact ⟨[], by rw [hx]; simp [cutNodes, cutAt]⟩
      · exact ⟨s, by rw [hx]; simp [cutNodes]⟩
    obtain ⟨ss, key⟩ := key
    rw [key, splitTokens_texts] at hl
    rcases List.mem_cons.1 hl with rfl | hl
    · exact ⟨ss, rfl⟩
    · exact ih (fun e he => hes e (by simp [he])) _ tl htl l hl

end Verif
