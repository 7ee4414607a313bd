/-
Properties C39-C41: joined texts, selection of tokens by position and pending sequences.
-/
import Verif.Lemmas.MatchingUtils
import Verif.Lemmas.Ok

namespace Verif

/-! ### C39 Index ranges of joined text -/

/-- Joining with a separator, without padding: the text consists of the items with the separator between
them, and the ranges are where the items are found. -/
theorem C39_separator (items : List Str) (sep : Str) (whitespace : Option (List (Option Str)))
    (hw : whitespace = none ∨ whitespace = some []) :
    ∃ text ranges, joinWithIndexRanges items sep [] whitespace = .ok (text, ranges) ∧
      Spec.LaidOut text items (items.map (fun _ => sep)) ranges := by
  refine ⟨joinStr sep items, itemRanges [] 0 (items.map (fun s => (s, sep))), ?_, ?_⟩
  · rcases hw with rfl | rfl <;> simp [joinWithIndexRanges]
  · have := laidOut_clear (items.map (fun s => (s, sep)))
    rw [flat_sep, List.map_map, List.map_map] at this
    simpa [Function.comp_def] using this

/-- Joining with white space given for each item (the separator where it is unknown), without padding. -/
theorem C39_whitespace (items : List Str) (sep : Str) (ws : List (Option Str)) (hl : ws.length = items.length) :
    ∃ text ranges, joinWithIndexRanges items sep [] (some ws) = .ok (text, ranges) ∧
      Spec.LaidOut text items (ws.map (fun w => w.getD sep)) ranges := by
  cases ws with
  | nil =>
    cases items with
    | nil => exact ⟨[], [], rfl, rfl, by simp, by simp, by simp, rfl⟩
    | cons => simp at hl
  | cons w ws =>
    have hl' : ((w :: ws).map (fun x => x.getD sep)).length = items.length := by simpa using hl
    have h := laidOut_clear (items.zip ((w :: ws).map (fun x => x.getD sep)))
    rw [map_fst_zip' _ _ hl'.symm, map_snd_zip' _ _ hl'.symm, ← itemRanges_clearItems, clearItems,
      map_fst_zip' _ _ hl'.symm, map_snd_zip' _ _ hl'.symm] at h
    refine ⟨_, _, ?_, h⟩
    unfold joinWithIndexRanges
    simp only []
    rw [if_neg (by rw [clearLast_length, hl']; omega)]
    simp [flat]

/-- With white space for fewer items than there are, an exception is raised. -/
theorem C39_missing_whitespace (items : List Str) (sep pad : Str) (ws : List (Option Str)) (hne : ws ≠ [])
    (hl : ws.length < items.length) : joinWithIndexRanges items sep pad (some ws) = .error .indexError := by
  cases ws with
  | nil => exact absurd rfl hne
  | cons w ws =>
    unfold joinWithIndexRanges
    simp only []
    rw [if_pos (by rw [clearLast_length]; simpa using hl)]

/-- With padding the ranges are wrong: they are longer than the padded items and start behind the
padding, so that the last one may even reach beyond the end of the text. -/
theorem C39_padding_wrong :
    joinWithIndexRanges [c!"ab", c!"cd"] c!" " c!"|" none = .ok (c!"|ab| |cd|", [(1, 5), (8, 12)]) ∧
    Spec.slice c!"|ab| |cd|" 1 4 = c!"ab| " ∧ Spec.slice c!"|ab| |cd|" 8 4 = c!"|" := by decide +kernel

/-- Exactly the items whose ranges overlap the range asked for are returned, in order. -/
theorem C39_between {α : Type} (xs : List α) (text : Str) (items gaps : List Str) (ranges : List (Nat × Nat))
    (h : Spec.LaidOut text items gaps ranges) (start e : Int) :
    itemsBetween start e (xs.zip ranges) = (xs.zip ranges).filter (fun x => Spec.overlaps start e x.2) := by
  have hmono : ranges.Pairwise (fun r r' => r.1 ≤ r'.1) := by
    have adj : ∀ (i : Nat) r r', ranges[i]? = some r → ranges[i + 1]? = some r' → r.1 ≤ r'.1 := by
      intro i r r' hr hr'
      obtain ⟨g, _, hg, _⟩ := h.gap i r r' hr hr'
      have hi : i < items.length := by
        rw [← h.length]
        exact (List.getElem?_eq_some_iff.1 hr).1
      have := (h.item i items[i] r (List.getElem?_eq_getElem hi) hr).1
      omega
    clear h
    induction ranges with
    | nil => exact List.Pairwise.nil
    | cons r rs ih =>
      have ih := ih (fun i a b ha hb => adj (i + 1) a b (by simpa using ha) (by simpa using hb))
      rw [List.pairwise_cons]
      refine ⟨?_, ih⟩
      cases rs with
      | nil => simp
      | cons r' rs =>
        have h1 := adj 0 r r' rfl rfl
        intro x hx
        rcases List.mem_cons.1 hx with rfl | hx
        · exact h1
        · exact Nat.le_trans h1 ((List.pairwise_cons.1 ih).1 x hx)
  apply itemsBetween_eq
  clear h
  induction ranges generalizing xs with
  | nil => simp
  | cons r rs ih =>
    cases xs with
    | nil => simp
    | cons x xs =>
      rw [List.pairwise_cons] at hmono
      rw [List.zip_cons_cons, List.pairwise_cons]
      exact ⟨fun y hy => hmono.1 _ (List.of_mem_zip hy).2, ih xs hmono.2⟩

example : joinWithIndexRanges [c!"ab", c!"", c!"cd"] c!" " [] (some [none, some c!"", some c!"  "]) =
      .ok (c!"ab cd", [(0, 2), (3, 3), (3, 5)]) ∧
    (itemsBetween 1 3 ([c!"ab", c!"", c!"cd"].zip [(0, 2), (3, 3), (3, 5)])).map Prod.fst = [c!"ab"] := by decide +kernel

/-! ### C40 Token selection by character range -/

/-- The tokens of a text made of sequences of tokens are laid out in it, sequences being separated by line
feeds, and selecting tokens by positions returns exactly the tokens whose text overlaps the range, in
order. -/
theorem C40_tokens_between (env : SeqEnv) (d : Doc) (seqs : List (List Nat)) (hne : ∀ s ∈ seqs, s ≠ []) :
    ∃ ranges, Spec.LaidOut (seqsText env d seqs) (seqs.flatten.map (fun i => env.filter (d.getText env.cc i)))
        (Spec.tokenGaps d seqs) ranges ∧
      ∀ start e : Int, seqTokensBetween env d start e seqs =
        ((seqs.flatten.zip ranges).filter (fun x => Spec.overlaps start e x.2)).map Prod.fst := by
  refine ⟨itemRanges [] 0 (seqs.flatMap (seqPieces env d)), ?_, fun start e => seqTokensBetween_eq env d start e seqs hne⟩
  have := laidOut_clear (seqs.flatMap (seqPieces env d))
  rw [flat_clear_seqs _ _ _ hne] at this
  have h1 : (seqs.flatMap (seqPieces env d)).map Prod.fst = seqs.flatten.map (fun i => env.filter (d.getText env.cc i)) := by
    clear this
    induction seqs with
    | nil => rfl
    | cons s seqs ih =>
      rw [List.flatMap_cons, List.map_append, ih (fun s hs => hne s (List.mem_cons_of_mem _ hs)),
        seqPieces_fst _ _ _ (hne s List.mem_cons_self), List.flatten_cons, List.map_append]
  have h2 : (seqs.flatMap (seqPieces env d)).map Prod.snd = Spec.tokenGaps d seqs := by
    clear this h1
    induction seqs with
    | nil => rfl
    | cons s seqs ih =>
      rw [List.flatMap_cons, List.map_append, ih (fun s hs => hne s (List.mem_cons_of_mem _ hs)),
        seqPieces_snd _ _ _ (hne s List.mem_cons_self), Spec.tokenGaps, Spec.tokenGaps, List.flatMap_cons]
  rwa [h1, h2] at this

/-- The text of one sequence, and its tokens by positions. -/
theorem C40_sequence (env : SeqEnv) (d : Doc) (tokens : List Nat) :
    ∃ ranges, Spec.LaidOut (seqText env d tokens) (tokens.map (fun i => env.filter (d.getText env.cc i)))
        (tokens.map (fun i => ((d.tok i).whitespace).getD c!" ")) ranges ∧
      ∀ start e : Int, tokensBetween env d start e tokens =
        ((tokens.zip ranges).filter (fun x => Spec.overlaps start e x.2)).map Prod.fst := by
  refine ⟨itemRanges [] 0 (seqItems env d tokens), ?_, fun start e => ?_⟩
  · rw [seqText, seqItems_eq, itemRanges_clearItems]
    have := laidOut_clear (tokens.map (fun i => (env.filter (d.getText env.cc i), tokenWhitespace d i)))
    rw [List.map_map, List.map_map] at this
    exact this
  · have := tokensBetween_eq env d start e 0 tokens
    simpa using this

/-- Two lines, one of which has an explicitly empty white space. -/
def exSeqDoc : Doc := Doc.ofLines [
  [⟨c!"One", false, [], some c!""⟩, ⟨c!",", false, [], none⟩, ⟨c!"Two", false, [(c!"tag", c!"b-t")], none⟩,
    ⟨c!"Three", false, [], none⟩],
  [⟨c!"Four", false, [], none⟩]]

example : seqsText ⟨asciiClass, id⟩ exSeqDoc [[0, 1], [3], [4]] = c!"One,\nThree\nFour" ∧
    seqTokensBetween ⟨asciiClass, id⟩ exSeqDoc 3 6 [[0, 1], [3], [4]] = [1, 3] ∧
    seqTokensBetween ⟨asciiClass, id⟩ exSeqDoc 10 12 [[0, 1], [3], [4]] = [4] ∧
    tokensBetween ⟨asciiClass, id⟩ exSeqDoc (-3) 3 [0, 1] = [0] := by decide +kernel

/-! ### C41 Pending text contains exactly the untagged tokens -/

/-- The pending sequences of a document whose tags may have changed to `d'` since: they contain the tokens
which have been untagged from the beginning and still are, each once and in document order; none is empty,
and they are the maximal runs of untagged tokens within the sequences of the lines. -/
theorem C41_pending (d d' : Doc) :
    (pendingSequences d' (pendingOfDoc d) none).flatten = Spec.untagged d' (Spec.untagged d d.nonSpaceTokens) ∧
    (∀ s ∈ pendingSequences d' (pendingOfDoc d) none, s ≠ []) ∧
    pendingSequences d' (pendingOfDoc d) none =
      ((d.lines.map (fun l => Spec.untagged d l.nonSpace)).filter (fun s => s ≠ [])).flatMap (Spec.untaggedRuns d') := by
  refine ⟨?_, ?_, ?_⟩
  · unfold pendingSequences
    rw [flatten_flatMap_untaggedSub, pendingOfDoc_flatten]
  · intro s hs
    unfold pendingSequences at hs
    obtain ⟨t, ht, hs⟩ := List.mem_flatMap.1 hs
    exact untaggedSub_ne_nil d' t (pendingOfDoc_ne_nil d t ht) s hs
  · unfold pendingSequences
    have : pendingOfDoc d = (d.lines.map (fun l => Spec.untagged d l.nonSpace)).filter (fun s => s ≠ []) := by
      unfold pendingOfDoc
      apply List.filter_congr
      intro s _
      cases s <;> simp
    rw [← this]
    have h := pendingOfDoc_ne_nil d
    generalize pendingOfDoc d = seqs at h
    induction seqs with
    | nil => rfl
    | cons s seqs ih =>
      have ih := ih (fun s hs => h s (List.mem_cons_of_mem _ hs))
      simp only [] at ih ⊢
      rw [List.flatMap_cons, List.flatMap_cons, ih, untaggedSub_eq _ _ (h s List.mem_cons_self)]

/-- As long as no tag is removed, the pending sequences contain exactly the untagged tokens. -/
theorem C41_exactly_untagged (d d' : Doc) (h : ∀ i ∈ d.nonSpaceTokens, truthy (d.getTag i) = true → truthy (d'.getTag i) = true) :
    (pendingSequences d' (pendingOfDoc d) none).flatten = Spec.untagged d' d.nonSpaceTokens := by
  rw [(C41_pending d d').1]
  unfold Spec.untagged
  rw [List.filter_filter]
  apply List.filter_congr
  intro i hi
  cases h1 : truthy (d.getTag i) with
  | false => simp
  | true => simp [h i hi h1]

/-- A limit cuts off the sequences behind the given number; `0` is no limit. -/
theorem C41_limit (d : Doc) (seqs : List (List Nat)) (n : Nat) :
    pendingSequences d seqs (some n) =
      if n = 0 then pendingSequences d seqs none else (pendingSequences d seqs none).take n := by
  cases n with
  | zero => rfl
  | succ n => rfl

example : pendingOfDoc exSeqDoc = [[0, 1, 3], [4]] ∧
    pendingSequences (exSeqDoc.setTag 1 (some c!"b-x")) (pendingOfDoc exSeqDoc) none = [[0], [3], [4]] ∧
    pendingSequences (exSeqDoc.setTag 1 (some c!"b-x")) (pendingOfDoc exSeqDoc) (some 2) = [[0], [3]] := by
  decide +kernel

end Verif
