/-
Property C13: what removing untagged text does.
-/
import Verif.Spec.Removed
import Verif.Props.TeiDoc

namespace Verif

open Spec

/-- Whether white space behind the tokens stays. -/
def spaceStays (d : Doc) (before : List Nat) : Bool :=
  match (before.filter (fun j => !(d.tok j).isSpace)).getLast? with
  | none => true
  | some j => truthy (d.getTag j)

theorem staying_concat (d : Doc) (ts : List Nat) (t : Nat) :
    staying d (ts ++ [t]) = staying d ts ++ if stays d ts t then [t] else [] := by
  unfold staying
  rw [List.zipIdx_append, List.filter_append, List.map_append]
  congr 1
  · congr 1
    refine List.filter_congr (fun x hx => ?_)
    have := List.mem_zipIdx hx
    rw [List.take_append_of_le_length (by omega)]
  · simp only [List.zipIdx_cons, List.zipIdx_nil, Nat.zero_add, List.filter_cons, List.filter_nil]
    rw [List.take_append_of_le_length (Nat.le_refl _), List.take_length]
    split <;> rfl

theorem rmToken_step (d : Doc) (L : List (List Nat)) (pre : List Nat) (t : Nat) :
    Doc.rmToken d ⟨staying d pre, spaceStays d pre, L⟩ t = ⟨staying d (pre ++ [t]), spaceStays d (pre ++ [t]), L⟩ := by
  rw [staying_concat]
  have hg : d.getTag t = d.getAttr t tagAttribName := rfl
  unfold Doc.rmToken
  rcases Bool.eq_false_or_eq_true (d.tok t).isSpace with hs | hs
  · have e1 : spaceStays d (pre ++ [t]) = spaceStays d pre := by
      unfold spaceStays
      rw [List.filter_append]
      simp [hs]
    have e2 : stays d pre t = spaceStays d pre := by
      unfold stays spaceStays
      rw [if_pos hs]
      rfl
    rw [if_pos hs, e1, e2]
    simp only
    split <;> simp_all
  · have e1 : spaceStays d (pre ++ [t]) = truthy (d.getTag t) := by
      unfold spaceStays
      rw [List.filter_append]
      simp [hs]
    have e2 : stays d pre t = truthy (d.getTag t) := by
      unfold stays
      rw [if_neg (by rw [hs]; decide)]
    rw [if_neg (by rw [hs]; decide), e1, e2, hg]
    simp only
    rcases Bool.eq_false_or_eq_true (truthy (d.getAttr t tagAttribName)) with h | h <;> simp [h]

theorem rmToken_line (d : Doc) (L : List (List Nat)) (ts : List Nat) : ∀ pre,
    ts.foldl (Doc.rmToken d) ⟨staying d pre, spaceStays d pre, L⟩ = ⟨staying d (pre ++ ts), spaceStays d (pre ++ ts), L⟩ := by
  induction ts with
  | nil => intro pre; simp
  | cons t ts ih =>
    intro pre
    rw [List.foldl_cons, rmToken_step, ih]
    simp

/-- The text tokens of the lines created while the lines `ls` behind `pre` are processed. -/
def createdLines (d : Doc) (pre : List Nat) : List Line → List (List Nat)
  | [] => []
  | l :: ls =>
    (if (staying d (pre ++ l.tokens)).isEmpty then []
      else [(staying d (pre ++ l.tokens)).filter (fun i => !(d.tok i).isSpace)]) ++ createdLines d (pre ++ l.tokens) ls

theorem rmLine_lines (d : Doc) (ls : List Line) : ∀ pre L,
    ls.foldl (Doc.rmLine d) ⟨staying d pre, spaceStays d pre, L⟩ =
      ⟨staying d (pre ++ ls.flatMap (·.tokens)), spaceStays d (pre ++ ls.flatMap (·.tokens)), L ++ createdLines d pre ls⟩ := by
  induction ls with
  | nil => intro pre L; simp [createdLines]
  | cons l ls ih =>
    intro pre L
    have h1 : Doc.rmLine d ⟨staying d pre, spaceStays d pre, L⟩ l =
        ⟨staying d (pre ++ l.tokens), spaceStays d (pre ++ l.tokens), L ++
          if (staying d (pre ++ l.tokens)).isEmpty then []
          else [(staying d (pre ++ l.tokens)).filter (fun i => !(d.tok i).isSpace)]⟩ := by
      unfold Doc.rmLine
      rw [rmToken_line]
      simp only
      split <;> simp
    rw [List.foldl_cons, h1, ih, createdLines]
    simp

theorem createdLines_eq (d : Doc) (ls : List Line) : ∀ pre : List Line,
    createdLines d (pre.flatMap (·.tokens)) ls =
      (((List.range ls.length).map (fun k => pre ++ ls.take (k + 1))).filter
        (fun p => !(staying d (p.flatMap (·.tokens))).isEmpty)).map
          (fun p => (staying d (p.flatMap (·.tokens))).filter (fun i => !(d.tok i).isSpace)) := by
  induction ls with
  | nil => intro pre; rfl
  | cons l ls ih =>
    intro pre
    have h := ih (pre ++ [l])
    simp only [List.flatMap_append, List.flatMap_cons, List.flatMap_nil, List.append_nil] at h
    rw [createdLines, h, List.length_cons, List.range_succ_eq_map, List.map_cons, List.map_map]
    simp only [List.take_succ_cons, List.take_zero, List.filter_cons, List.append_assoc, List.singleton_append, Function.comp_def,
      List.flatMap_append, List.flatMap_cons, List.flatMap_nil, List.append_nil]
    rcases Bool.eq_false_or_eq_true (staying d (pre.flatMap (·.tokens) ++ l.tokens)).isEmpty with hx | hx
    · simp [hx]
    · simp [hx]

/-- **C13.** The exact result: for each line up to which something stays there is a line with all tokens which stay in
the whole document; what counts as its text are the tokens which stay up to this line. The line of the tokens which
stay is this one; all other tokens are as before. -/
theorem C13_exact (d : Doc) :
    d.removeAllUntagged.lines = (((List.range d.lines.length).map (fun k => d.lines.take (k + 1))).filter
        (fun p => !(staying d (p.flatMap (·.tokens))).isEmpty)).map
          (fun p => ⟨staying d d.allTokens, (staying d (p.flatMap (·.tokens))).filter (fun i => !(d.tok i).isSpace)⟩) ∧
    (∀ i, d.removeAllUntagged.lineOf i = if i ∈ staying d d.allTokens then staying d d.allTokens else d.lineOf i) ∧
    d.removeAllUntagged.tok = d.tok := by
  have h := rmLine_lines d d.lines [] []
  have h0 : (⟨staying d [], spaceStays d [], []⟩ : Doc.RmState) = ⟨[], true, []⟩ := rfl
  rw [h0] at h
  have hc := createdLines_eq d d.lines []
  simp only [List.flatMap_nil, List.nil_append] at hc h
  refine ⟨?_, fun i => ?_, rfl⟩
  · unfold Doc.removeAllUntagged
    rw [h, hc]
    simp only [List.map_map]
    rfl
  · unfold Doc.removeAllUntagged
    rw [h]
    simp only [List.contains_iff_mem]
    rfl

/-- Text tokens stay if and only if they are tagged. -/
theorem C13_text_stays (d : Doc) (i : Nat) (hs : (d.tok i).isSpace = false) :
    i ∈ staying d d.allTokens ↔ i ∈ d.allTokens ∧ truthy (d.getTag i) = true := by
  unfold staying
  constructor
  · intro h
    obtain ⟨⟨j, k⟩, hx, rfl⟩ := List.mem_map.1 h
    obtain ⟨hm, hst⟩ := List.mem_filter.1 hx
    refine ⟨List.mem_of_getElem? (List.mem_zipIdx_iff_getElem?.1 hm), ?_⟩
    unfold stays at hst
    rw [if_neg (by simp only; rw [hs]; decide)] at hst
    exact hst
  · rintro ⟨h, ht⟩
    obtain ⟨k, hk⟩ := List.mem_iff_getElem?.1 h
    refine List.mem_map.2 ⟨(i, k), List.mem_filter.2 ⟨List.mem_zipIdx_iff_getElem?.2 hk, ?_⟩, rfl⟩
    unfold stays
    rw [if_neg (by simp only; rw [hs]; decide)]
    exact ht

/-- The document of `C13_tokens_duplicated`. -/
example : staying Props.exRm Props.exRm.allTokens = [0, 1, 3] ∧
    Props.exRm.removeAllUntagged.lines = [⟨[0, 1, 3], [0]⟩, ⟨[0, 1, 3], [0, 3]⟩] ∧
    Props.exRm.removeAllUntagged.lineOf 0 = [0, 1, 3] ∧ Props.exRm.removeAllUntagged.lineOf 2 = [0, 1, 2] := by
  decide +kernel

end Verif
