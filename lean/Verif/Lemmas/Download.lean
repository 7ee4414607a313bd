/-
Lemmas about Model/Paths and Model/Download.
-/
import Verif.Spec.Download

namespace Verif

open Spec

theorem fileListInit_eq (env : FilesEnv) (base : Option Str) (files : List Str) :
    FileList.init env base files = ⟨base, files.map (relOf env base), files.map (absOf env base)⟩ := by
  rcases base with _ | (_ | ⟨c, b⟩)
  · show FileList.mk none files files = ⟨none, files.map (fun f => f), files.map (fun f => f)⟩
    simp
  · show FileList.mk (some []) files files = ⟨some [], files.map (fun f => f), files.map (fun f => f)⟩
    simp
  · rfl

theorem zip_filter_zip (l1 l2 : List Str) (sel : List Bool) (h1 : l1.length = sel.length) (h2 : l2.length = sel.length) :
    (((l1.zip sel).filter (fun p => p.2)).map (fun p => p.1)).zip (((l2.zip sel).filter (fun p => p.2)).map (fun p => p.1)) =
      (((l1.zip l2).zip sel).filter (fun p => p.2)).map (fun p => p.1) ∧
    (((l1.zip sel).filter (fun p => p.2)).map (fun p => p.1)).length =
      (((l2.zip sel).filter (fun p => p.2)).map (fun p => p.1)).length := by
  induction sel generalizing l1 l2 with
  | nil => cases l1 <;> cases l2 <;> simp_all
  | cons s sel ih =>
    cases l1 with
    | nil => simp at h1
    | cons a l1 =>
      cases l2 with
      | nil => simp at h2
      | cons b l2 =>
        obtain ⟨i1, i2⟩ := ih l1 l2 (by simpa using h1) (by simpa using h2)
        cases s with
        | false => exact ⟨i1, i2⟩
        | true =>
          simp only [List.zip_cons_cons, List.filter_cons_of_pos, List.map_cons, i1, List.length_cons, i2, and_self]

theorem zip_map_filter {α : Type} (l : List α) (f : α → Bool) :
    ((l.zip (l.map f)).filter (fun p => p.2)).map (fun p => p.1) = l.filter f := by
  induction l with
  | nil => rfl
  | cons a l ih =>
    simp only [List.map_cons, List.zip_cons_cons]
    cases hf : f a with
    | false => rw [List.filter_cons_of_neg (by simp), List.filter_cons_of_neg (by simp [hf]), ih]
    | true => rw [List.filter_cons_of_pos (by simp), List.filter_cons_of_pos (by simp [hf]), List.map_cons, ih]

theorem mem_zip_sel (l : List Str) (sel : List Bool) (x : Str)
    (h : x ∈ ((l.zip sel).filter (fun p => p.2)).map (fun p => p.1)) : x ∈ l := by
  obtain ⟨p, hp, rfl⟩ := List.mem_map.mp h
  exact (List.of_mem_zip (List.mem_filter.mp hp).1).1

/-- What `filter_file_pair_exists` returns. -/
theorem filterPairExists_spec (env : FilesEnv) (b1 b2 : Option Str) (f1 f2 : List Str) (r1 r2 : FileList)
    (h1 : AbsStable env b1) (h2 : AbsStable env b2)
    (h : filterPairExists env (FileList.init env b1 f1) (FileList.init env b2 f2) = .ok (r1, r2)) :
    f1.length = f2.length ∧ r1.abs.length = r2.abs.length ∧
      r1.abs.zip r2.abs = ((f1.map (absOf env b1)).zip (f2.map (absOf env b2))).filter
        (fun p => env.fileExists p.1 && env.fileExists p.2) ∧
      r1.rel = r1.abs.map (relOf env b1) ∧ r2.rel = r2.abs.map (relOf env b2) := by
  unfold filterPairExists at h
  simp only [fileListInit_eq] at h
  generalize hsel : List.map (fun p : Bool × Bool => p.1 && p.2) _ = sel at h
  unfold FileList.select at h
  simp only [] at h
  by_cases hl1 : sel.length ≠ (f1.map (absOf env b1)).length
  · rw [if_pos hl1] at h; cases h
  · rw [if_neg hl1] at h
    by_cases hl2 : sel.length ≠ (f2.map (absOf env b2)).length
    · rw [if_pos hl2] at h; cases h
    · rw [if_neg hl2] at h
      have hl1 : sel.length = (f1.map (absOf env b1)).length := Classical.not_not.mp hl1
      have hl2 : sel.length = (f2.map (absOf env b2)).length := Classical.not_not.mp hl2
      simp only [fileListInit_eq] at h
      cases h
      have hstab : ∀ (b : Option Str) (f : List Str), AbsStable env b →
          (((f.map (absOf env b)).zip sel).filter (fun p => p.2) |>.map (fun p => p.1)).map (absOf env b) =
            (((f.map (absOf env b)).zip sel).filter (fun p => p.2)).map (fun p => p.1) := by
        intro b f hb
        conv => rhs; rw [← List.map_id ((((f.map (absOf env b)).zip sel).filter (fun p => p.2)).map (fun p => p.1))]
        apply List.map_congr_left
        intro x hx
        obtain ⟨y, -, rfl⟩ := List.mem_map.mp (mem_zip_sel _ _ _ hx)
        exact hb y
      obtain ⟨hz1, hz2⟩ := zip_filter_zip _ _ sel hl1.symm hl2.symm
      simp only [hstab b1 f1 h1, hstab b2 f2 h2]
      refine ⟨by simpa using hl1.symm.trans hl2, hz2, ?_, trivial, trivial⟩
      rw [hz1]
      have : sel = ((f1.map (absOf env b1)).zip (f2.map (absOf env b2))).map
          (fun p => env.fileExists p.1 && env.fileExists p.2) := by
        rw [← hsel, List.zip_map, List.map_map]
        rfl
      rw [this, zip_map_filter]

theorem filterPairExists_ok (env : FilesEnv) (b1 b2 : Option Str) (f1 f2 : List Str) (hl : f1.length = f2.length) :
    ∃ r, filterPairExists env (FileList.init env b1 f1) (FileList.init env b2 f2) = .ok r := by
  unfold filterPairExists
  simp only [fileListInit_eq, FileList.select]
  rw [if_neg (by simp [hl]), ]
  simp only []
  rw [if_neg (by simp [hl])]
  exact ⟨_, rfl⟩

theorem relativeOutputFiles_spec {env : FilesEnv} {pattern : List PatternPart} {lists : List (Str × List Str)} {files os : List Str}
    {k : Nat} (h : relativeOutputFiles env pattern lists files k = .ok os) :
    os.length = files.length ∧ ∀ i f, files[i]? = some f → ∃ o, os[i]? = some o ∧
      relativeOutputFile env pattern lists f (k + i) = .ok o := by
  induction files generalizing k os with
  | nil => cases h; exact ⟨rfl, fun i f hf => by simp at hf⟩
  | cons f fs ih =>
    unfold relativeOutputFiles at h
    cases h1 : relativeOutputFile env pattern lists f k with
    | error e => simp [h1] at h
    | ok o =>
      simp only [h1] at h
      cases h2 : relativeOutputFiles env pattern lists fs (k + 1) with
      | error e => simp [h2] at h
      | ok os' =>
        simp only [h2] at h
        cases h
        obtain ⟨i1, i2⟩ := ih h2
        refine ⟨by simp [i1], ?_⟩
        intro i g hg
        cases i with
        | zero => cases hg; exact ⟨o, rfl, h1⟩
        | succ i =>
          obtain ⟨o', h3, h4⟩ := i2 i g hg
          exact ⟨o', h3, by rw [show k + (i + 1) = k + 1 + i by omega]; exact h4⟩

theorem relativeOutputFiles_ok (env : FilesEnv) (pattern : List PatternPart) (lists : List (Str × List Str)) (files : List Str)
    (k : Nat) (h : ∀ i, i < files.length → ∀ f, ∃ o, relativeOutputFile env pattern lists f (k + i) = .ok o) :
    ∃ os, relativeOutputFiles env pattern lists files k = .ok os := by
  induction files generalizing k with
  | nil => exact ⟨_, rfl⟩
  | cons f fs ih =>
    obtain ⟨o, ho⟩ := h 0 (by simp) f
    obtain ⟨os, hos⟩ := ih (k + 1) (fun i hi g => by
      rw [show k + 1 + i = k + (i + 1) by omega]; exact h (i + 1) (by simpa using hi) g)
    refine ⟨o :: os, ?_⟩
    unfold relativeOutputFiles
    rw [show k = k + 0 from rfl, ho]
    simp only [Nat.add_zero]
    rw [hos]

theorem formatParts_ok (index : Nat) (own d t : NameProps) (pattern : List PatternPart) (h : KnownLists pattern) :
    ∃ s, formatParts index own [(c!"document", d), (c!"target", t)] pattern = .ok s := by
  induction pattern with
  | nil => exact ⟨_, rfl⟩
  | cons p ps ih =>
    obtain ⟨r, hr⟩ := ih (fun l f hm => h l f (List.mem_cons_of_mem _ hm))
    have hp : ∃ s, formatPart index own [(c!"document", d), (c!"target", t)] p = .ok s := by
      cases p with
      | lit s => exact ⟨_, rfl⟩
      | index => exact ⟨_, rfl⟩
      | field f => exact ⟨_, rfl⟩
      | other l f =>
        rcases h l f List.mem_cons_self with rfl | rfl
        · exact ⟨_, rfl⟩
        · exact ⟨_, rfl⟩
    obtain ⟨s, hs⟩ := hp
    refine ⟨s ++ r, ?_⟩
    unfold formatParts
    rw [hs, hr]

theorem otherProps_two (env : FilesEnv) (i : Nat) (a b : Str) (l1 l2 : List Str) (x y : Str) (h1 : l1[i]? = some x)
    (h2 : l2[i]? = some y) :
    otherProps env i [(a, l1), (b, l2)] = .ok [(a, namePropsOf env x), (b, namePropsOf env y)] := by
  simp [otherProps, h1, h2]

theorem outputFileList_abs {env : FilesEnv} {source r : FileList} {path : Str} {pattern : List PatternPart}
    {lists : List (Str × List Str)} (h : outputFileList env source path pattern lists = .ok r) :
    ∃ os, relativeOutputFiles env pattern lists source.rel 0 = .ok os ∧
      r.abs = os.map (fun o => absOf env (some path) (joinPath path o)) := by
  unfold outputFileList at h
  cases h1 : relativeOutputFiles env pattern lists source.rel 0 with
  | error e => simp [h1] at h
  | ok os =>
    simp only [h1] at h
    cases h
    refine ⟨os, rfl, ?_⟩
    rw [fileListInit_eq]
    simp only [List.map_map]
    rfl

/-! ### Names -/

theorem joinPath_inj {a x y : Str} (hx : ¬ ['/'] <+: x) (hy : ¬ ['/'] <+: y) (h : joinPath a x = joinPath a y) : x = y := by
  have hx' : startsWith ['/'] x = false := by
    unfold startsWith
    rw [Bool.eq_false_iff]
    exact fun hc => hx (List.isPrefixOf_iff_prefix.mp hc)
  have hy' : startsWith ['/'] y = false := by
    unfold startsWith
    rw [Bool.eq_false_iff]
    exact fun hc => hy (List.isPrefixOf_iff_prefix.mp hc)
  unfold joinPath at h
  rw [hx', hy'] at h
  simp only [Bool.false_eq_true, if_false] at h
  split at h
  · exact List.append_cancel_left h
  · have := List.append_cancel_left h
    injection this

theorem baseName_decompose (p : Str) :
    ∃ head, p = head ++ baseName p ∧ '/' ∉ baseName p ∧ (head = [] ∨ ∃ x, head = x ++ ['/']) := by
  have hd := List.takeWhile_append_dropWhile (p := fun x => decide (x ≠ '/')) (l := p.reverse)
  refine ⟨(p.reverse.dropWhile (fun x => x ≠ '/')).reverse, ?_, ?_, ?_⟩
  · unfold baseName
    rw [← List.reverse_append, hd, List.reverse_reverse]
  · unfold baseName
    rw [List.mem_reverse]
    intro hc
    have := List.all_takeWhile (p := fun x => decide (x ≠ '/')) (l := p.reverse)
    have := List.all_eq_true.mp this _ hc
    simp at this
  · generalize hq : p.reverse.dropWhile (fun x => decide (x ≠ '/')) = q
    cases q with
    | nil => exact .inl rfl
    | cons c q =>
      right
      have := List.head?_dropWhile_not (fun x => decide (x ≠ '/')) p.reverse
      rw [hq] at this
      simp only [List.head?_cons, decide_not] at this
      have hc : c = '/' := by simpa using this
      subst hc
      exact ⟨q.reverse, by simp⟩

theorem dropWhile_of_getLast {x : Str} {p : Char → Bool} (hx : x ≠ []) (h : p (x.getLast hx) = false) :
    (x.reverse.dropWhile p).reverse = x := by
  have : x.reverse = x.getLast hx :: x.dropLast.reverse := by
    conv => lhs; rw [← List.dropLast_concat_getLast hx]
    simp
  rw [this, List.dropWhile_cons_of_neg (by simp [h]), ← this, List.reverse_reverse]

/-- A plain path is its directory and its file name. -/
theorem dirName_baseName (p : Str) (hp : PlainPath p) :
    (if (dirName p).isEmpty then [] else dirName p ++ ['/']) ++ baseName p = p := by
  obtain ⟨head, h1, h2, h3⟩ := baseName_decompose p
  have htake : p.take (p.length - (baseName p).length) = head := by
    conv => lhs; rw [h1]
    rw [← h1]
    have : p.length - (baseName p).length = head.length := by
      have := congrArg List.length h1
      rw [List.length_append] at this
      omega
    rw [this]
    conv => lhs; rw [h1]
    simp
  unfold dirName
  rw [htake]
  simp only []
  rcases h3 with rfl | ⟨x, rfl⟩
  · simp only [List.all_nil, if_true, List.isEmpty_nil]
    exact h1.symm
  · have hx : x ≠ [] := by
      rintro rfl
      exact hp.1 ⟨baseName p, by simpa using h1.symm⟩
    have hlast : x.getLast hx ≠ '/' := by
      intro hl
      apply hp.2
      refine ⟨x.dropLast, baseName p, ?_⟩
      conv => rhs; rw [h1, ← List.dropLast_concat_getLast hx, hl]
      simp
    have hall : (x ++ ['/']).all (fun c => decide (c = '/')) = false := by
      rw [Bool.eq_false_iff]
      intro hc
      have := List.all_eq_true.mp hc (x.getLast hx) (List.mem_append_left _ (List.getLast_mem hx))
      simp at this
      exact hlast this
    rw [hall]
    simp only [Bool.false_eq_true, if_false, List.reverse_append, List.reverse_cons, List.reverse_nil, List.nil_append,
      List.cons_append]
    rw [List.dropWhile_cons_of_pos (by simp), dropWhile_of_getLast hx (by simpa using hlast)]
    rw [if_neg (by simpa using hx)]
    exact h1.symm

theorem baseName_plain {p : Str} (h : '/' ∉ p) : baseName p = p := by
  unfold baseName
  rw [← List.append_nil p.reverse, List.takeWhile_append_of_pos]
  · simp
  intro c hc
  have : c ≠ '/' := fun he => h (by rw [← he]; exact List.mem_reverse.mp hc)
  simpa using this

theorem rsplitOnce_spec {c : Char} {s a b : Str} (h : rsplitOnce c s = some (a, b)) : s = a ++ c :: b ∧ c ∉ b := by
  unfold rsplitOnce at h
  split at h
  · rename_i hm
    have hd := List.takeWhile_append_dropWhile (p := fun x => decide (x ≠ c)) (l := s.reverse)
    generalize hq : s.reverse.takeWhile (fun x => decide (x ≠ c)) = q at h hd
    generalize hr : s.reverse.dropWhile (fun x => decide (x ≠ c)) = r at hd
    have hnq : c ∉ q := by
      rw [← hq]
      intro hc
      have := List.all_eq_true.mp (List.all_takeWhile (p := fun x => decide (x ≠ c)) (l := s.reverse)) _ hc
      simp at this
    have hrev : s = r.reverse ++ q.reverse := by
      rw [← List.reverse_append, hd, List.reverse_reverse]
    cases r with
    | nil =>
      exfalso
      rw [hrev] at hm
      simp at hm
      exact hnq hm
    | cons x r =>
      have hx : x = c := by
        have := List.head?_dropWhile_not (fun x => decide (x ≠ c)) s.reverse
        rw [hr] at this
        simpa using this
      subst hx
      simp only [Option.some.injEq, Prod.mk.injEq] at h
      obtain ⟨h1, h2⟩ := h
      have hlen : s.length - q.reverse.length - 1 = r.reverse.length := by
        rw [hrev]
        simp
        omega
      rw [hlen, hrev] at h1
      subst h2
      refine ⟨?_, fun hc => hnq (List.mem_reverse.mp hc)⟩
      rw [← h1, hrev]
      simp
  · cases h

/-- Splitting a file name. -/
theorem splitExt_spec {s : Str} (hs : '/' ∉ s) :
    (splitExt s).1 ++ (splitExt s).2 = s ∧
      ((splitExt s).2 = [] ∨ (∃ e, (splitExt s).2 = '.' :: e ∧ '.' ∉ e) ∧ ∃ c ∈ (splitExt s).1, c ≠ '.') := by
  unfold splitExt
  rw [baseName_plain hs]
  cases h : rsplitOnce '.' s with
  | none => exact ⟨by simp, .inl rfl⟩
  | some p =>
    obtain ⟨a, b⟩ := p
    obtain ⟨h1, h2⟩ := rsplitOnce_spec h
    simp only []
    split
    · exact ⟨by simp, .inl rfl⟩
    · rename_i hall
      have ht : s.take (s.length - (b.length + 1)) = a := by
        have : s.length - (b.length + 1) = a.length := by
          rw [h1, List.length_append, List.length_cons]
          omega
        rw [this, h1]
        simp
      rw [ht]
      refine ⟨h1.symm, .inr ⟨⟨b, rfl, h2⟩, ?_⟩⟩
      refine Classical.byContradiction fun hn => hall ?_
      rw [List.all_eq_true]
      intro c hc
      refine Classical.byContradiction fun hcn => hn ⟨c, hc, ?_⟩
      simpa using hcn

/-! ### Copying -/

/-- Invariant of the copying. -/
structure CopyInv (jobs : List (Str × Str)) (fs0 : FileStore) (c : CopyConfig) : Prop where
  length : c.states.length = jobs.length
  other : ∀ q, (∀ j ∈ jobs, j.2 ≠ q) → c.fs q = fs0 q
  state : ∀ (i : Nat) (src out : Str) (st : CopyState), jobs[i]? = some (src, out) → c.states[i]? = some st →
    match st with
    | .todo => c.fs out = fs0 out
    | .opened d => fs0 src = some d ∧ c.fs out = fs0 out
    | .writing rest => ∃ w, c.fs out = some w ∧ fs0 src = some (w ++ rest)
    | .done => fs0 src ≠ none ∧ c.fs out = fs0 src
    | .failed => fs0 src = none ∧ c.fs out = fs0 out

theorem copyInv_step {jobs : List (Str × Str)} {fs0 : FileStore} (hnd : (jobs.map (·.2)).Nodup)
    (hdis : ∀ j ∈ jobs, ∀ k ∈ jobs, j.1 ≠ k.2) {c c' : CopyConfig} (hi : CopyInv jobs fs0 c) (hs : CopyAllStep jobs c c') :
    CopyInv jobs fs0 c' := by
  obtain ⟨hj, hst, hstep⟩ := hs
  rename_i i src out st st' fs'
  have hjm : (src, out) ∈ jobs := List.mem_of_getElem? hj
  have hput : fs' = c.fs ∨ ∃ d, fs' = c.fs.put out d := by
    cases hstep <;> first | exact .inl rfl | exact .inr ⟨_, rfl⟩
  have hother : ∀ q, q ≠ out → fs' q = c.fs q := by
    intro q hq
    rcases hput with rfl | ⟨d, rfl⟩
    · rfl
    · simp [FileStore.put, hq]
  have hsrc : c.fs src = fs0 src := hi.other src (fun j hjm' he => hdis _ hjm _ hjm' he.symm)
  refine ⟨by simp [hi.length], ?_, ?_⟩
  · intro q hq
    show fs' q = fs0 q
    rw [hother q (fun he => hq _ hjm he.symm), hi.other q hq]
  · intro k src2 out2 st2 hk hst2
    simp only at hst2
    by_cases hik : i = k
    · subst hik
      rw [hj] at hk
      cases hk
      rw [List.getElem?_set_self (by
        have := List.getElem?_eq_some_iff.mp hst
        exact this.1)] at hst2
      cases hst2
      have hold := hi.state i src out st hj hst
      cases hstep with
      | openSource h => exact ⟨by rw [← hsrc]; exact h, hold⟩
      | openFails h => exact ⟨by rw [← hsrc]; exact h, hold⟩
      | create => exact ⟨[], by simp [FileStore.put], by simpa using hold.1⟩
      | write =>
        rename_i piece rest
        obtain ⟨w, h1, h2⟩ := hold
        exact ⟨w ++ piece, by simp [FileStore.put, h1], by simpa using h2⟩
      | close =>
        obtain ⟨w, h1, h2⟩ := hold
        rw [List.append_nil] at h2
        exact ⟨by rw [h2]; exact Option.some_ne_none _, by rw [h1, h2]⟩
    · rw [List.getElem?_set_ne hik] at hst2
      have hne : out2 ≠ out := by
        intro he
        have hil : i < jobs.length := (List.getElem?_eq_some_iff.mp hj).1
        have hkl : k < jobs.length := (List.getElem?_eq_some_iff.mp hk).1
        have h1 : (jobs.map (·.2))[i]'(by simpa using hil) = out := by
          simp [(List.getElem?_eq_some_iff.mp hj).2]
        have h2 : (jobs.map (·.2))[k]'(by simpa using hkl) = out := by
          simp [(List.getElem?_eq_some_iff.mp hk).2, he]
        exact hik ((List.getElem_inj hnd).mp (h1.trans h2.symm))
      have hold := hi.state k src2 out2 st2 hk hst2
      simp only [hother out2 hne]
      exact hold

theorem copyInv_reach {jobs : List (Str × Str)} {fs0 : FileStore} (hnd : (jobs.map (·.2)).Nodup)
    (hdis : ∀ j ∈ jobs, ∀ k ∈ jobs, j.1 ≠ k.2) {c : CopyConfig} (h : CopyReach jobs fs0 c) : CopyInv jobs fs0 c := by
  induction h with
  | start =>
    refine ⟨by simp, fun _ _ => rfl, ?_⟩
    intro i src out st hj hst
    simp only [List.getElem?_map, hj, Option.map_some] at hst
    cases hst
    rfl
  | step _ hs ih => exact copyInv_step hnd hdis ih hs

end Verif
