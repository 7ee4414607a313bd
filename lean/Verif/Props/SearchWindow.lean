/-
Property C122: where the values of a block are looked for.
-/
import Verif.Lemmas.SearchWindow
import Verif.Props.SimpleMatching
import Verif.Spec.SearchWindow

namespace Verif

theorem blockOf_eq (cfg : MatchCfg) (t : Target) :
    pyOr (cfg.tagConfig t.name).blockName (some c!"default") = Spec.blockOf cfg t := by
  unfold Spec.blockOf
  cases (cfg.tagConfig t.name).blockName with
  | none => rfl
  | some b => cases b <;> rfl

/-! ### C122 Blocks -/

/-- A search in the whole document begins a new block. The value is not found where the last block was, but
in the text of all untagged tokens of the round. Following values are looked for in the sequences of tokens
from the one on in which the value begins: the text of the sequences before does not reach beyond the start
of the value, and with the next sequence it does. Behind these there is at most one sequence without text. -/
theorem C122_block_begins (env : MatchEnv) (cfg : MatchCfg) (pending : List (List Nat)) (st st' : MatchState) (t : Target)
    (h : processTarget env cfg pending st t = .ok st') (hb : st'.block ≠ st.block ∨ st'.current ≠ st.current) :
    st'.block = Spec.blockOf cfg t ∧
    matchingRanges env cfg (seqsText (matchSeqEnv env) st.doc (pendingSequences st.doc st.current (some cfg.lookahead))) t = .ok [] ∧
    ∃ rs m, matchingRanges env cfg (seqsText (matchSeqEnv env) st.doc (pendingSequences st.doc pending none)) t = .ok rs ∧
      (∃ e, (m, e) ∈ rs) ∧ (∀ r ∈ rs, m ≤ r.1) ∧
      ∃ before after, pendingSequences st.doc pending none = before ++ st'.current ++ after ∧
        (seqsText (matchSeqEnv env) st.doc before).length ≤ m ∧
        (∀ s rest, st'.current = s :: rest → m < (seqsText (matchSeqEnv env) st.doc (before ++ [s])).length) ∧
        (after = [] ∨ ∃ s, after = [s] ∧ seqText (matchSeqEnv env) st.doc s = []) := by
  unfold processTarget at h
  simp only at h
  split at h
  · cases h
  · split at h
    · cases h
    · cases h
      simp at hb
  · next hnone =>
    split at h
    · cases h
      simp at hb
    · split at h
      · cases h
      · cases h
        simp at hb
      · next r rs hr =>
        split at h
        · cases h
        · next m hm =>
          split at h
          · cases h
          · next d hd =>
            cases h
            obtain ⟨s, e, h1, h2, ⟨r', hr', hs⟩, _⟩ := C57_merge (r :: rs) (by simp)
            rw [hm] at h1
            cases h1
            exact ⟨blockOf_eq cfg t, hnone, r :: rs, s, hr, ⟨r'.2, by rw [← hs]; exact hr'⟩, fun x hx => (h2 x hx).1,
              seqsBetween_window (matchSeqEnv env) st.doc s (pendingSequences st.doc pending none)⟩

/-- Values of the block found last are only tagged where that block was found, and do not begin a new one. -/
theorem C122_block_stays (env : MatchEnv) (cfg : MatchCfg) (pending : List (List Nat)) (targets : List Target) (st st' : MatchState)
    (hb : ∀ t ∈ targets, Spec.blockOf cfg t = st.block) (h : processTargets env cfg pending st targets = .ok st') :
    st'.block = st.block ∧ st'.current = st.current ∧ ∀ i, i ∉ st.current.flatten →
      st'.doc.getTag i = st.doc.getTag i ∧ st'.doc.getSubTag i = st.doc.getSubTag i := by
  induction targets generalizing st with
  | nil => cases h; exact ⟨rfl, rfl, fun _ _ => ⟨rfl, rfl⟩⟩
  | cons t ts ih =>
    unfold processTargets at h
    split at h
    · cases h
    · next st1 h1 =>
      have hstep : st1.block = st.block ∧ st1.current = st.current ∧ ∀ i, i ∉ st.current.flatten →
          st1.doc.getTag i = st.doc.getTag i ∧ st1.doc.getSubTag i = st.doc.getSubTag i := by
        unfold processTarget at h1
        simp only at h1
        split at h1
        · cases h1
        · split at h1
          · cases h1
          · next d hd =>
            cases h1
            have hg := applyRanges_grows _ _ _ _ _ _ _ _ hd
            refine ⟨rfl, rfl, fun i hi => ?_⟩
            have hi' : i ∉ (pendingSequences st.doc st.current (some cfg.lookahead)).flatten :=
              fun h => hi ((pendingSequences_sublist _ _ _).subset h)
            exact ⟨(hg.tag i).resolve_right (fun h => hi' h.2.1), (hg.sub i).resolve_right (fun h => hi' h.2.1)⟩
        · rw [if_pos (show st.block = pyOr _ _ from ((blockOf_eq cfg t).trans (hb t List.mem_cons_self)).symm)] at h1
          cases h1
          exact ⟨rfl, rfl, fun _ _ => ⟨rfl, rfl⟩⟩
      obtain ⟨a1, a2, a3⟩ := hstep
      obtain ⟨b1, b2, b3⟩ := ih st1 (fun t ht => by rw [a1]; exact hb t (List.mem_cons_of_mem _ ht)) h
      refine ⟨b1.trans a1, b2.trans a2, fun i hi => ?_⟩
      have := b3 i (by rw [a2]; exact hi)
      exact ⟨this.1.trans (a3 i hi).1, this.2.trans (a3 i hi).2⟩

/-- Once a value of a block has been looked for in the whole document and found, no following value of the
same block is tagged in the sequences before the one in which the first value begins. -/
theorem C122_not_before (env : MatchEnv) (cfg : MatchCfg) (pending : List (List Nat)) (st st1 st' : MatchState) (t : Target)
    (targets : List Target) (hd : pending.flatten.Nodup)
    (h : processTarget env cfg pending st t = .ok st1) (hnew : st1.block ≠ st.block)
    (hb : ∀ x ∈ targets, Spec.blockOf cfg x = Spec.blockOf cfg t) (h' : processTargets env cfg pending st1 targets = .ok st') :
    ∃ rs m, matchingRanges env cfg (seqsText (matchSeqEnv env) st.doc (pendingSequences st.doc pending none)) t = .ok rs ∧
      (∃ e, (m, e) ∈ rs) ∧ (∀ r ∈ rs, m ≤ r.1) ∧
      ∃ before rest, pendingSequences st.doc pending none = before ++ rest ∧
        (seqsText (matchSeqEnv env) st.doc before).length ≤ m ∧
        (∀ s tail, rest = s :: tail → seqText (matchSeqEnv env) st.doc s ≠ [] →
          m < (seqsText (matchSeqEnv env) st.doc (before ++ [s])).length) ∧
        ∀ i ∈ before.flatten, st'.doc.getTag i = st1.doc.getTag i ∧ st'.doc.getSubTag i = st1.doc.getSubTag i := by
  obtain ⟨h1, _, rs, m, h2, h3, h4, before, after, h5, h6, h7, h8⟩ := C122_block_begins env cfg pending st st1 t h (.inl hnew)
  obtain ⟨_, _, h9⟩ := C122_block_stays env cfg pending targets st1 st' (fun x hx => (hb x hx).trans h1.symm) h'
  refine ⟨rs, m, h2, h3, h4, before, st1.current ++ after, by rw [h5, List.append_assoc], h6, ?_, fun i hi => h9 i ?_⟩
  · intro s tail hs hne
    cases hc : st1.current with
    | cons a b =>
      rw [hc] at hs
      cases hs
      exact h7 s b hc
    | nil =>
      rw [hc] at hs
      rcases h8 with h8 | ⟨s', h8, h8'⟩
      · rw [h8] at hs; cases hs
      · rw [h8] at hs; cases hs; exact absurd h8' hne
  · have hn : (pendingSequences st.doc pending none).flatten.Nodup := hd.sublist (pendingSequences_sublist _ _ _)
    rw [h5, List.flatten_append, List.flatten_append, List.append_assoc] at hn
    intro hc
    exact (List.nodup_append.1 hn).2.2 i hi i (List.mem_append_left _ hc) rfl

/-! ### Examples -/

/-- Three lines, of which the first is like the last. -/
def exBlockDoc : Doc := Doc.ofLines [
  [⟨c!"author", false, [], none⟩], [⟨c!"title", false, [], none⟩], [⟨c!"author", false, [], none⟩]]

def exBlockCfg (b1 b2 : Str) : MatchCfg :=
  { lookahead := 1, tagConfigMap := [(c!"title", { blockName := some b1 }), (c!"name", { blockName := some b2 })] }

def exBlockTargets : List Target := [⟨c!"title", .one c!"title", []⟩, ⟨c!"name", .one c!"author", []⟩]

/-- With a lookahead of one line the title is looked for in the whole document, and the name behind the
title, as both are of the same block. -/
example : (pendingOfDoc exBlockDoc).flatten.Nodup ∧ ∃ x,
    processTargetAnnotations exMatchEnv (exBlockCfg c!"a" c!"a") exBlockDoc exBlockTargets = .ok x ∧
    x.1.nonSpaceTokens.map (fun i => x.1.getTag i) = [none, some c!"b-title", some c!"b-name"] :=
  ⟨by decide, exists_of_okAnd (by decide +kernel)⟩

/-- The first step of this example begins a block at the second line. -/
example : ∃ x : MatchState, processTarget exMatchEnv (exBlockCfg c!"a" c!"a") (pendingOfDoc exBlockDoc)
      ⟨exBlockDoc, pendingOfDoc exBlockDoc, none, []⟩ ⟨c!"title", .one c!"title", []⟩ = .ok x ∧
    (x.block = some c!"a" ∧ x.current = (pendingOfDoc exBlockDoc).drop 1) :=
  exists_of_okAnd (by decide +kernel)

/-- Fields of different blocks: the name is looked for in the whole document, as it is not found in the line
behind the title. -/
example : ∃ x, processTargetAnnotations exMatchEnv (exBlockCfg c!"a" c!"b")
      (Doc.ofLines [[⟨c!"author", false, [], none⟩], [⟨c!"title", false, [], none⟩], [⟨c!"other", false, [], none⟩]])
      exBlockTargets = .ok x ∧
    x.1.nonSpaceTokens.map (fun i => x.1.getTag i) = [some c!"b-name", some c!"b-title", none] :=
  exists_of_okAnd (by decide +kernel)

/-- Fields of the same block: the name before the title is left for the next round. -/
example : ∃ x, processTargetAnnotations exMatchEnv (exBlockCfg c!"a" c!"a")
      (Doc.ofLines [[⟨c!"author", false, [], none⟩], [⟨c!"title", false, [], none⟩], [⟨c!"other", false, [], none⟩]])
      exBlockTargets = .ok x ∧
    (x.1.nonSpaceTokens.map (fun i => x.1.getTag i) = [none, some c!"b-title", none] ∧ x.2.map (·.name) = [c!"name"]) :=
  exists_of_okAnd (by decide +kernel)

end Verif
