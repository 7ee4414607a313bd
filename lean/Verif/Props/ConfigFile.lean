/-
C117: What a configuration file says. C118: The XML mapping and the segmentation configuration read from a file.
-/
import Verif.Lemmas.ConfigFile
import Verif.Lemmas.Ok

namespace Verif
open Spec

/-! ## C117 Reading -/

theorem map_configOf (cc : CharClass) (blocks : List ConfigBlock) :
    (eventSections (blockEvents blocks)).map (fun s => (s.1, s.2.map (fun o => (o.1, rstrip cc (joinStr c!"\n" o.2))))) = configOf cc blocks := by
  rw [eventSections_blocks, List.map_map]
  unfold configOf
  apply List.map_congr_left
  intro s _
  simp only [Function.comp, List.map_map]
  rfl

/-- C117: a file that consists of sections with options is read as these; a section or an option given twice is an
error. -/
theorem C117_read (cc : CharClass) (lower : Str → Str) (lines : List Str) (blocks : List ConfigBlock)
    (h : FileBlocks cc lower lines blocks) :
    (NoRepetition blocks → readConfig cc lower lines = .ok (configOf cc blocks)) ∧
    (¬ NoRepetition blocks → ∃ e, readConfig cc lower lines = .error e) := by
  obtain ⟨noise, ls, rfl, hn, hb⟩ := h
  have h1 := iniLines_body hb {} [] (.inl rfl) (.inl rfl)
  have h2 : iniLines cc lower {} (noise ++ ls) = iniLines cc lower {} ls := iniLines_noise hn rfl ls
  have h3 := iniEvents_spec [] (blockEvents blocks)
  rw [noRepetition_iff] at h3
  simp only [entryEvents, List.map_nil, List.nil_append] at h1
  have h0 : eventSections [] = ([] : Dict (Dict (List Str))) := rfl
  rw [h0, List.nil_append] at h3
  unfold readConfig
  rw [h2]
  constructor
  · intro hr
    rw [h3.1 hr] at h1
    cases hl : iniLines cc lower {} ls with
    | error e => rw [hl] at h1; cases h1
    | ok st =>
      rw [hl] at h1
      have h1 : st.sections = _ := h1
      simp only
      rw [h1, map_configOf]
  · intro hr
    rw [h3.2 hr] at h1
    cases hl : iniLines cc lower {} ls with
    | error e => exact ⟨e, rfl⟩
    | ok st => rw [hl] at h1; cases h1

/-- C117: whatever is read from a file is what the file consists of; everything else is an error. -/
theorem C117_only (cc : CharClass) (lower : Str → Str) (lines : List Str) (config : Dict (Dict Str))
    (h : readConfig cc lower lines = .ok config) :
    ∃ blocks, FileBlocks cc lower lines blocks ∧ NoRepetition blocks ∧ config = configOf cc blocks := by
  have hb : ∃ blocks, FileBlocks cc lower lines blocks := by
    unfold readConfig at h
    cases hl : iniLines cc lower {} lines with
    | error e => rw [hl] at h; cases h
    | ok st =>
      obtain ⟨noise, ls, es, bs, h1, h2, h3, h4⟩ := (body_of_ok lines {} st hl).1 rfl
      have h4 := h4 rfl
      subst h4
      exact ⟨bs, noise, ls, h1, h2, h3⟩
  obtain ⟨blocks, hb⟩ := hb
  obtain ⟨h1, h2⟩ := C117_read cc lower lines blocks hb
  refine ⟨blocks, hb, ?_, ?_⟩
  · apply Classical.byContradiction
    intro hr
    obtain ⟨e, he⟩ := h2 hr
    rw [he] at h; cases h
  · by_cases hr : NoRepetition blocks
    · rw [h1 hr] at h
      exact (Except.ok.inj h).symm
    · obtain ⟨e, he⟩ := h2 hr
      rw [he] at h; cases h

theorem iniLines_append (cc : CharClass) (lower : Str → Str) (st : IniState) (a b : List Str) : iniLines cc lower st (a ++ b) =
    match iniLines cc lower st a with
    | .error e => .error e
    | .ok st => iniLines cc lower st b := by
  induction a generalizing st with
  | nil => rfl
  | cons l a ih =>
    rw [List.cons_append, iniLines, iniLines]
    cases iniLine cc lower st l with
    | error e => rfl
    | ok st => exact ih st

/-- C117: comments do not count, wherever they are. -/
theorem C117_comment (cc : CharClass) (lower : Str → Str) (a b : List Str) (l : Str) (h : IsComment cc l) :
    readConfig cc lower (a ++ l :: b) = readConfig cc lower (a ++ b) := by
  have : iniLines cc lower {} (a ++ l :: b) = iniLines cc lower {} (a ++ b) := by
    rw [iniLines_append, iniLines_append]
    cases iniLines cc lower {} a with
    | error e => rfl
    | ok st =>
      simp only
      rw [iniLines]
      have : iniLine cc lower st l = .ok st := by
        unfold iniLine
        simp only
        rw [if_pos ((comment_iff cc l).mpr h)]
      rw [this]
  unfold readConfig
  rw [this]

theorem entries_names_lower {cc : CharClass} {lower : Str → Str} {ls : List Str} {es : List ConfigEntry} {bs : List ConfigBlock}
    (h : BodyLines cc lower ls es bs) : (∀ e ∈ es, ∃ key, e.name = lower key) ∧ ∀ b ∈ bs, ∀ e ∈ b.entries, ∃ key, e.name = lower key := by
  induction h with
  | nil => exact ⟨by simp, by simp⟩
  | header h hn hb ih =>
    refine ⟨by simp, ?_⟩
    intro b hb'
    rcases List.mem_cons.mp hb' with rfl | hb'
    · exact ih.1
    · exact ih.2 b hb'
  | entry h hv hi hb ih =>
    obtain ⟨key, d, rest, _, _, _, _, hk, _⟩ := h
    refine ⟨?_, ih.2⟩
    intro e he
    rcases List.mem_cons.mp he with rfl | he
    · exact ⟨_, hk⟩
    · exact ih.1 e he

/-- C117: all names of options are in lower case, however they are written in the file. -/
theorem C117_lower_case (cc : CharClass) (lower : Str → Str) (lines : List Str) (config : Dict (Dict Str))
    (h : readConfig cc lower lines = .ok config) (s : Str) (opts : Dict Str) (hs : (s, opts) ∈ config) (k v : Str) (hk : (k, v) ∈ opts) :
    ∃ key, k = lower key := by
  obtain ⟨blocks, ⟨noise, ls, _, _, hb⟩, _, rfl⟩ := C117_only cc lower lines config h
  unfold configOf at hs
  obtain ⟨s', _, he⟩ := List.mem_map.mp hs
  simp only [Prod.mk.injEq] at he
  obtain ⟨rfl, rfl⟩ := he
  obtain ⟨e, he, he'⟩ := List.mem_map.mp hk
  simp only [Prod.mk.injEq] at he'
  obtain ⟨rfl, _⟩ := he'
  unfold entriesOf at he
  obtain ⟨b, hb', he⟩ := List.mem_flatMap.mp he
  exact (entries_names_lower hb).2 b (List.mem_filter.mp hb').1 e he

/-! ## C118 Values -/

theorem takeWhile_name (name s : Str) (hp : ')' ∉ name) :
    (name ++ ')' :: 's' :: s).takeWhile (fun c => c ≠ ')') = name ∧ (name ++ ')' :: 's' :: s).dropWhile (fun c => c ≠ ')') = ')' :: 's' :: s := by
  have h : ∀ c ∈ name, decide (c ≠ ')') = true := by
    intro c hc
    simp only [decide_eq_true_eq]
    rintro rfl
    exact hp hc
  rw [List.takeWhile_append_of_pos h, List.dropWhile_append_of_pos h]
  simp

theorem expands_of_interpolate {lower : Str → Str} {value : Str → Option Str} (n : Nat) (look : Str → Except Err Str)
    (hl : ∀ name w, look name = .ok w → ∃ v, value name = some v ∧ ('%' ∉ v ∧ w = v ∨ '%' ∈ v ∧ Expands lower value n v w)) (m : Nat) :
    ∀ (s t : Str), s.length = m → interpolateWith lower look s = .ok t → Expands lower value (n + 1) s t := by
  induction m using Nat.strongRecOn with
  | _ m ih =>
    intro s t hm h
    rw [interpolateWith.eq_def] at h
    split at h
    · cases h; exact .nil
    · next s =>
      cases hr : interpolateWith lower look s with
      | error e => rw [hr] at h; cases h
      | ok r =>
        rw [hr] at h
        cases h
        exact .percent (ih _ (by rw [← hm]; simp; omega) s r rfl hr)
    · next s =>
      split at h
      · next hc =>
        cases hv : look (lower (s.takeWhile (fun c => decide (c ≠ ')')))) with
        | error e => rw [hv] at h; cases h
        | ok w =>
          rw [hv] at h
          simp only at h
          have hsw : ∃ rest, s.dropWhile (fun c => decide (c ≠ ')')) = ')' :: 's' :: rest := by
            have := hc.2
            unfold startsWith at this
            rw [List.isPrefixOf_iff_prefix] at this
            obtain ⟨r, hr⟩ := this
            exact ⟨r, hr.symm⟩
          obtain ⟨rest, hrest⟩ := hsw
          rw [hrest] at h
          simp only [List.drop_succ_cons, List.drop_zero] at h
          have hs : s = s.takeWhile (fun c => decide (c ≠ ')')) ++ ')' :: 's' :: rest := by
            rw [← hrest, List.takeWhile_append_dropWhile]
          have hnp : ')' ∉ s.takeWhile (fun c => decide (c ≠ ')')) := by
            intro hmem
            have := List.all_takeWhile (p := fun c : Char => decide (c ≠ ')')) (l := s)
            rw [List.all_eq_true] at this
            have := this _ hmem
            simp at this
          cases hr : interpolateWith lower look rest with
          | error e => rw [hr] at h; cases h
          | ok r =>
            rw [hr] at h
            cases h
            have hlen : rest.length < m := by
              rw [← hm]
              have := congrArg List.length hs
              simp only [List.length_append, List.length_cons] at this ⊢
              omega
            have hrec := ih _ hlen rest r rfl hr
            obtain ⟨v, h1, h2⟩ := hl _ _ hv
            rw [hs]
            rcases h2 with ⟨h2, rfl⟩ | ⟨h2, h3⟩
            · exact .plain hc.1 hnp h1 h2 hrec
            · exact .nested hc.1 hnp h1 h2 h3 hrec
      · cases h
    · cases h
    · next c s h1 h2 h3 =>
      have hc : c ≠ '%' := fun hc => h3 hc
      cases hr : interpolateWith lower look s with
      | error e => rw [hr] at h; cases h
      | ok r =>
        rw [hr] at h
        cases h
        exact .char hc (ih _ (by rw [← hm]; simp) s r rfl hr)

theorem interpolateWith_char (lower : Str → Str) (look : Str → Except Err Str) (c : Char) (s : Str) (hc : c ≠ '%') :
    interpolateWith lower look (c :: s) = (interpolateWith lower look s).map (c :: ·) := by
  rw [interpolateWith.eq_def]
  split
  · next h => cases h
  · next h => cases h; exact absurd rfl hc
  · next h => cases h; exact absurd rfl hc
  · next h => cases h; exact absurd rfl hc
  · next h => cases h; rfl

/-- C118: references to other options are replaced by their values, down to ten levels. -/
theorem C118_expansion (lower : Str → Str) (d : Dict Str) (n : Nat) (s t : Str) :
    interpolate lower d n s = .ok t ↔ Expands lower d.get? n s t := by
  induction n generalizing s t with
  | zero =>
    constructor
    · intro h; cases h
    · intro h; cases h
  | succ n ih =>
    constructor
    · intro h
      rw [interpolate] at h
      refine expands_of_interpolate n _ ?_ _ s t rfl h
      intro name w hw
      cases hg : d.get? name with
      | none => rw [hg] at hw; cases hw
      | some v =>
        rw [hg] at hw
        simp only at hw
        refine ⟨v, rfl, ?_⟩
        split at hw
        · next hm => exact .inr ⟨by simpa using hm, (ih v w).mp hw⟩
        · next hm => cases hw; exact .inl ⟨by simpa using hm, rfl⟩
    · intro h
      rw [interpolate]
      generalize hk : n + 1 = k at h
      induction h with
      | nil => rw [interpolateWith.eq_def]
      | percent h ihh =>
        have ihh := ihh hk
        rw [interpolateWith.eq_def]
        simp only [ihh]
        rfl
      | @plain m name s t v hne hp hv hn h ihh =>
        have ihh := ihh hk
        obtain ⟨h1, h2⟩ := takeWhile_name name s hp
        rw [interpolateWith.eq_def]
        simp only [h1, h2]
        rw [if_pos ⟨hne, rfl⟩, hv]
        simp only
        rw [if_neg (by simpa using hn)]
        simp only [List.drop_succ_cons, List.drop_zero, ihh]
        rfl
      | @nested m name s t v w hne hp hv hn hw h ihw ihh =>
        have ihh := ihh hk
        cases hk
        obtain ⟨h1, h2⟩ := takeWhile_name name s hp
        rw [interpolateWith.eq_def]
        simp only [h1, h2]
        rw [if_pos ⟨hne, rfl⟩, hv]
        simp only
        rw [if_pos (by simpa using hn), (ih v w).mpr hw]
        simp only [List.drop_succ_cons, List.drop_zero, ihh]
        rfl
      | char hc h ihh =>
        have ihh := ihh hk
        rw [interpolateWith_char _ _ _ _ hc, ihh]
        rfl

theorem mapExcept_ok {α β : Type} (f : α → Except Err β) (l : List α) (r : List β) (h : mapExcept f l = .ok r) :
    r.length = l.length ∧ ∀ (i : Nat) (a : α), l[i]? = some a → ∃ b, f a = .ok b ∧ r[i]? = some b := by
  induction l generalizing r with
  | nil => cases h; exact ⟨rfl, fun i a ha => by simp at ha⟩
  | cons x l ih =>
    unfold mapExcept at h
    cases hx : f x with
    | error e => rw [hx] at h; cases h
    | ok b =>
      rw [hx] at h
      simp only at h
      cases hl : mapExcept f l with
      | error e => rw [hl] at h; cases h
      | ok r' =>
        rw [hl] at h
        cases h
        obtain ⟨h1, h2⟩ := ih r' hl
        refine ⟨by simp [h1], ?_⟩
        intro i a ha
        cases i with
        | zero => cases ha; exact ⟨b, hx, rfl⟩
        | succ i => exact h2 i a ha

theorem mapExcept_total {α β : Type} (f : α → Except Err β) (l : List α) (h : ∀ a ∈ l, ∃ b, f a = .ok b) : ∃ r, mapExcept f l = .ok r := by
  induction l with
  | nil => exact ⟨[], rfl⟩
  | cons x l ih =>
    obtain ⟨b, hb⟩ := h x List.mem_cons_self
    obtain ⟨r, hr⟩ := ih (fun a ha => h a (List.mem_cons_of_mem _ ha))
    exact ⟨b :: r, by unfold mapExcept; rw [hb]; simp only; rw [hr]; rfl⟩

/-- The values of a dictionary computed from those of another one. -/
theorem mapExcept_dict {f : Str → Str → Except Err Str} {d r : Dict Str} (h : mapExcept (fun o : Str × Str => (f o.1 o.2).map (fun v => (o.1, v))) d = .ok r) :
    r.map (·.1) = d.map (·.1) ∧ ∀ k, (∀ raw, d.get? k = some raw → ∃ v, f k raw = .ok v ∧ r.get? k = some v) ∧ (d.get? k = none → r.get? k = none) := by
  induction d generalizing r with
  | nil => cases h; exact ⟨rfl, fun k => ⟨fun raw h => (by cases h), fun _ => rfl⟩⟩
  | cons p d ih =>
    obtain ⟨k0, raw0⟩ := p
    unfold mapExcept at h
    simp only at h
    cases hx : f k0 raw0 with
    | error e => rw [hx] at h; cases h
    | ok v0 =>
      rw [hx] at h
      simp only [Except.map] at h
      cases hl : mapExcept (fun o : Str × Str => (f o.1 o.2).map (fun v => (o.1, v))) d with
      | error e =>
        have hl' := hl
        unfold Except.map at hl'
        rw [hl'] at h; cases h
      | ok r' =>
        have hl' := hl
        unfold Except.map at hl'
        rw [hl'] at h
        cases h
        obtain ⟨h1, h2⟩ := ih hl
        refine ⟨by simp [h1], fun k => ?_⟩
        unfold Dict.get?
        by_cases hk : k0 = k
        · subst hk
          simp only [if_true]
          exact ⟨fun raw hr => (by cases hr; exact ⟨v0, hx, rfl⟩), fun hr => (by cases hr)⟩
        · simp only [if_neg hk]
          exact h2 k

theorem get?_find {cc : CharClass} (es : List ConfigEntry) (k : Str) :
    Dict.get? (es.map (fun e => (e.name, entryValue cc e))) k = (es.find? (fun e => e.name = k)).map (entryValue cc) := by
  induction es with
  | nil => rfl
  | cons e es ih =>
    rw [List.map_cons, Dict.get?]
    by_cases h : e.name = k
    · rw [if_pos h, List.find?_cons_of_pos (by simpa using h)]; rfl
    · rw [if_neg h, List.find?_cons_of_neg (by simpa using h), ih]

theorem getD_configOf (cc : CharClass) (blocks : List ConfigBlock) (s : Str) :
    Dict.getD (configOf cc blocks) s [] = (entriesOf blocks s).map (fun e => (e.name, entryValue cc e)) := by
  unfold Dict.getD configOf
  rw [get?_map_keys (uniqueKeys (blocks.map (·.name))) (fun s => (entriesOf blocks s).map (fun e => (e.name, entryValue cc e)))]
  split
  · rfl
  · next h =>
    rw [mem_uniqueKeys] at h
    have : blocks.filter (fun b => decide (b.name = s)) = [] := by
      rw [List.filter_eq_nil_iff]
      intro b hb
      simp only [decide_eq_true_eq]
      intro hs
      exact h (List.mem_map.mpr ⟨b, hb, hs⟩)
    unfold entriesOf
    rw [this]; rfl

theorem get?_update (es d : List (Str × Str)) (hnd : (es.map (·.1)).Nodup) (k : Str) :
    Dict.get? (es.foldl (fun d o => Dict.set d o.1 o.2) d) k = (Dict.get? es k).or (Dict.get? d k) := by
  induction es generalizing d with
  | nil => rfl
  | cons e es ih =>
    obtain ⟨k0, v0⟩ := e
    rw [List.map_cons, List.nodup_cons] at hnd
    rw [List.foldl_cons, ih _ hnd.2, Dict.get?]
    by_cases h : k0 = k
    · subst h
      rw [if_pos rfl, Dict.get?_set_self]
      have : Dict.get? es k0 = none := by
        cases hg : Dict.get? es k0 with
        | none => rfl
        | some v => exact absurd ((get?_isSome_keys es k0).mp (by rw [hg]; rfl)) hnd.1
      rw [this]; rfl
    · rw [if_neg h, Dict.get?_set_ne _ _ (Ne.symm h)]

theorem get?_sectionOptions (cc : CharClass) (blocks : List ConfigBlock) (hr : NoRepetition blocks) (s k : Str) :
    Dict.get? (sectionOptions (configOf cc blocks) s) k = optionText cc blocks s k := by
  unfold sectionOptions
  rw [getD_configOf, getD_configOf, get?_update, get?_find, get?_find]
  · unfold optionText iniDefault
    cases (entriesOf blocks s).find? (fun e => decide (e.name = k)) <;> rfl
  · rw [List.map_map]; exact hr.2 s

theorem mapExcept_error {α β : Type} (f : α → Except Err β) (l : List α) (a : α) (ha : a ∈ l) (e : Err) (he : f a = .error e) :
    ∃ e', mapExcept f l = .error e' := by
  cases h : mapExcept f l with
  | error e' => exact ⟨e', rfl⟩
  | ok r =>
    obtain ⟨i, hi⟩ := List.mem_iff_getElem?.mp ha
    obtain ⟨b, hb, _⟩ := (mapExcept_ok f l r h).2 i a hi
    rw [he] at hb; cases hb

theorem get?_of_nodup {β : Type} (d : List (Str × β)) (k : Str) (v : β) (hm : (k, v) ∈ d) (hnd : (d.map (·.1)).Nodup) :
    Dict.get? d k = some v := by
  induction d with
  | nil => cases hm
  | cons p d ih =>
    obtain ⟨k', v'⟩ := p
    rw [List.map_cons, List.nodup_cons] at hnd
    rw [Dict.get?]
    rcases List.mem_cons.mp hm with h | h
    · cases h; rw [if_pos rfl]
    · rw [if_neg (by rintro rfl; exact hnd.1 (List.mem_map.mpr ⟨_, h, rfl⟩)), ih h hnd.2]

theorem nodup_set_keys {β : Type} (d : List (Str × β)) (k : Str) (v : β) (hnd : (d.map (·.1)).Nodup) :
    ((Dict.set d k v).map (·.1)).Nodup ∧ ∀ x, x ∈ (Dict.set d k v).map (·.1) → x ∈ d.map (·.1) ∨ x = k := by
  induction d with
  | nil => simp [Dict.set]
  | cons p d ih =>
    obtain ⟨k', v'⟩ := p
    rw [List.map_cons, List.nodup_cons] at hnd
    rw [Dict.set]
    by_cases h : k' = k
    · rw [if_pos h]
      refine ⟨List.nodup_cons.mpr hnd, ?_⟩
      intro x hx
      exact .inl hx
    · rw [if_neg h]
      obtain ⟨h1, h2⟩ := ih hnd.2
      refine ⟨?_, ?_⟩
      · rw [List.map_cons, List.nodup_cons]
        refine ⟨?_, h1⟩
        intro hm
        rcases h2 _ hm with hm | hm
        · exact hnd.1 hm
        · exact h hm
      · intro x hx
        rw [List.map_cons, List.mem_cons] at hx ⊢
        rcases hx with hx | hx
        · exact .inl (.inl hx)
        · rcases h2 x hx with hx | hx
          · exact .inl (.inr hx)
          · exact .inr hx

theorem nodup_update (es d : List (Str × Str)) (hnd : (d.map (·.1)).Nodup) :
    ((es.foldl (fun d o => Dict.set d o.1 o.2) d).map (·.1)).Nodup := by
  induction es generalizing d with
  | nil => exact hnd
  | cons e es ih => exact ih _ (nodup_set_keys d e.1 e.2 hnd).1

/-- The values of the options of a section. -/
theorem configItems_spec (cc : CharClass) (lower : Str → Str) (blocks : List ConfigBlock) (hr : NoRepetition blocks) (s : Str) :
    (∀ items, configItems lower (configOf cc blocks) s = .ok items → ∀ k v, items.get? k = some v ↔ OptionValue cc lower blocks s k v) ∧
    ((∀ k text, optionText cc blocks s k = some text → ∃ v, OptionValue cc lower blocks s k v) →
      ∃ items, configItems lower (configOf cc blocks) s = .ok items) := by
  have hget := get?_sectionOptions cc blocks hr s
  have hfun : (sectionOptions (configOf cc blocks) s).get? = optionText cc blocks s := funext hget
  unfold configItems
  simp only
  constructor
  · intro items h k v
    obtain ⟨_, h2⟩ := mapExcept_dict (f := fun _ raw => interpolate lower (sectionOptions (configOf cc blocks) s) 10 raw) h
    obtain ⟨h3, h4⟩ := h2 k
    unfold OptionValue
    cases ht : optionText cc blocks s k with
    | none =>
      rw [h4 (by rw [hget, ht])]
      constructor
      · intro h; cases h
      · rintro ⟨_, h, _⟩; cases h
    | some text =>
      obtain ⟨v', h5, h6⟩ := h3 text (by rw [hget, ht])
      rw [h6]
      have h5 := (C118_expansion lower _ 10 text v').mp h5
      rw [hfun] at h5
      constructor
      · intro h; cases h; exact ⟨text, rfl, h5⟩
      · rintro ⟨text', h, h7⟩
        cases h
        rw [← hfun] at h5 h7
        have e1 := (C118_expansion lower _ 10 text v').mpr h5
        have e2 := (C118_expansion lower _ 10 text v).mpr h7
        rw [e1] at e2
        rw [Except.ok.inj e2]
  · intro h
    apply mapExcept_total
    rintro ⟨k, text⟩ hm
    have hg : (sectionOptions (configOf cc blocks) s).get? k = some text := by
      apply get?_of_nodup _ _ _ hm
      apply nodup_update
      rw [getD_configOf, List.map_map]
      exact hr.2 iniDefault
    rw [hget] at hg
    obtain ⟨v, text', h1, h2⟩ := h k text hg
    rw [hg] at h1
    cases h1
    rw [← hfun] at h2
    refine ⟨(k, v), ?_⟩
    simp only
    rw [(C118_expansion lower _ 10 text v).mpr h2]
    rfl

/-- The values of a section exist if they can be read. -/
theorem configItems_total (cc : CharClass) (lower : Str → Str) (blocks : List ConfigBlock) (hr : NoRepetition blocks) (s : Str)
    (items : Dict Str) (h : configItems lower (configOf cc blocks) s = .ok items) (k text : Str) (ht : optionText cc blocks s k = some text) :
    ∃ v, OptionValue cc lower blocks s k v := by
  have hget := get?_sectionOptions cc blocks hr s
  have hfun : (sectionOptions (configOf cc blocks) s).get? = optionText cc blocks s := funext hget
  unfold configItems at h
  simp only at h
  obtain ⟨_, h2⟩ := mapExcept_dict (f := fun _ raw => interpolate lower (sectionOptions (configOf cc blocks) s) 10 raw) h
  obtain ⟨v, h5, _⟩ := (h2 k).1 text (by rw [hget, ht])
  have h5 := (C118_expansion lower _ 10 text v).mp h5
  rw [hfun] at h5
  exact ⟨v, text, ht, h5⟩

theorem names_configOf (cc : CharClass) (blocks : List ConfigBlock) :
    (configOf cc blocks).map (·.1) = uniqueKeys (blocks.map (·.name)) := by
  unfold configOf
  rw [List.map_map]
  exact List.map_id' _

/-- C118: the mapping read from a file has the sections of the file except `DEFAULT`, and their options with the
values that belong to them; reading fails only if a value contains a percent sign that is no reference to a value. -/
theorem C118_mapping (cc : CharClass) (lower : Str → Str) (lines : List Str) (blocks : List ConfigBlock)
    (h : FileBlocks cc lower lines blocks) (hr : NoRepetition blocks) :
    (∀ m, parseXmlMapping cc lower lines = .ok m →
      m.map (·.1) = (uniqueKeys (blocks.map (·.name))).filter (fun s => s ≠ c!"DEFAULT") ∧
      ∀ s items, (s, items) ∈ m → ∀ k v, Dict.get? items k = some v ↔ OptionValue cc lower blocks s k v) ∧
    ((∃ m, parseXmlMapping cc lower lines = .ok m) ↔
      ∀ b ∈ blocks, b.name ≠ c!"DEFAULT" → ∀ k text, optionText cc blocks b.name k = some text → ∃ v, OptionValue cc lower blocks b.name k v) := by
  have hc := (C117_read cc lower lines blocks h).1 hr
  unfold parseXmlMapping
  rw [hc]
  simp only
  have hkeys : ((configOf cc blocks).filter (fun s => decide (s.1 ≠ iniDefault))).map (·.1) =
      (uniqueKeys (blocks.map (·.name))).filter (fun s => decide (s ≠ c!"DEFAULT")) := by
    rw [← names_configOf cc blocks, List.filter_map]
    rfl
  constructor
  · intro m hm
    obtain ⟨hlen, hidx⟩ := mapExcept_ok _ _ _ hm
    have hpt : ∀ i : Nat, m[i]?.map (·.1) = ((configOf cc blocks).filter (fun s => decide (s.1 ≠ iniDefault)))[i]?.map (·.1) ∧
        ∀ p, m[i]? = some p → configItems lower (configOf cc blocks) p.1 = .ok p.2 := by
      intro i
      cases hi : ((configOf cc blocks).filter (fun s => decide (s.1 ≠ iniDefault)))[i]? with
      | none =>
        have : m[i]? = none := by
          rw [List.getElem?_eq_none_iff] at hi ⊢
          omega
        rw [this]
        exact ⟨rfl, fun p hp => by cases hp⟩
      | some a =>
        obtain ⟨b, hb, hb'⟩ := hidx i a hi
        cases hci : configItems lower (configOf cc blocks) a.1 with
        | error e => rw [hci] at hb; cases hb
        | ok items =>
          rw [hci] at hb
          cases hb
          rw [hb']
          exact ⟨rfl, fun p hp => by cases hp; exact hci⟩
    constructor
    · rw [← hkeys]
      apply List.ext_getElem?
      intro i
      rw [List.getElem?_map, List.getElem?_map]
      exact (hpt i).1
    · intro s items hmem k v
      obtain ⟨i, hi⟩ := List.mem_iff_getElem?.mp hmem
      exact (configItems_spec cc lower blocks hr s).1 items ((hpt i).2 _ hi) k v
  · constructor
    · rintro ⟨m, hm⟩ b hb hne k text ht
      have hin : b.name ∈ ((configOf cc blocks).filter (fun s => decide (s.1 ≠ iniDefault))).map (·.1) := by
        rw [hkeys, List.mem_filter, mem_uniqueKeys]
        exact ⟨List.mem_map.mpr ⟨b, hb, rfl⟩, by simpa using hne⟩
      obtain ⟨⟨s, opts⟩, hs, hs'⟩ := List.mem_map.mp hin
      simp only at hs'
      subst hs'
      obtain ⟨i, hi⟩ := List.mem_iff_getElem?.mp hs
      obtain ⟨x, hx, _⟩ := (mapExcept_ok _ _ _ hm).2 i _ hi
      cases hci : configItems lower (configOf cc blocks) b.name with
      | error e => simp only [hci] at hx; cases hx
      | ok items => exact configItems_total cc lower blocks hr b.name items hci k text ht
    · intro hall
      apply mapExcept_total
      rintro ⟨s, opts⟩ hs
      have hin : s ∈ (uniqueKeys (blocks.map (·.name))).filter (fun s => decide (s ≠ c!"DEFAULT")) := by
        rw [← hkeys]
        exact List.mem_map.mpr ⟨_, hs, rfl⟩
      rw [List.mem_filter, mem_uniqueKeys] at hin
      obtain ⟨b, hb, rfl⟩ := List.mem_map.mp hin.1
      obtain ⟨items, hi⟩ := (configItems_spec cc lower blocks hr b.name).2 (hall b hb (by simpa using hin.2))
      refine ⟨(b.name, items), ?_⟩
      simp only
      rw [hi]
      rfl

/-- C118: a value without percent signs is not changed. -/
theorem C118_plain (lower : Str → Str) (value : Str → Option Str) (n : Nat) (s t : Str) (h : '%' ∉ s) :
    Expands lower value (n + 1) s t ↔ t = s := by
  induction s generalizing t with
  | nil =>
    constructor
    · intro h; cases h; rfl
    · rintro rfl; exact .nil
  | cons c s ih =>
    simp only [List.mem_cons, not_or] at h
    constructor
    · intro hx
      cases hx with
      | percent => exact absurd rfl h.1
      | plain => exact absurd rfl h.1
      | nested => exact absurd rfl h.1
      | char hc hx => rw [(ih _ h.2).mp hx]
    · rintro rfl
      exact .char (fun hc => h.1 hc.symm) ((ih s h.2).mpr rfl)

theorem get?_configOf_isSome (cc : CharClass) (blocks : List ConfigBlock) (s : Str) :
    (Dict.get? (configOf cc blocks) s).isSome = true ↔ ∃ b ∈ blocks, b.name = s := by
  rw [get?_isSome_keys, names_configOf, mem_uniqueKeys, List.mem_map]

theorem configInt_spec (cc : CharClass) (lower : Str → Str) (parseInt : Str → Option Int) (blocks : List ConfigBlock) (hr : NoRepetition blocks)
    (k : Str) (fallback n : Int) (h : configInt lower parseInt (configOf cc blocks) c!"config" k fallback = .ok n) :
    NumberOption cc lower parseInt blocks k fallback n := by
  have hget := get?_sectionOptions cc blocks hr c!"config"
  have hfun : (sectionOptions (configOf cc blocks) c!"config").get? = optionText cc blocks c!"config" := funext hget
  unfold configInt at h
  split at h
  · next hs =>
    rw [get?_configOf_isSome] at hs
    rw [hget] at h
    cases ht : optionText cc blocks c!"config" (lower k) with
    | none =>
      rw [ht] at h
      cases h
      exact .inl ⟨.inr ht, rfl⟩
    | some text =>
      rw [ht] at h
      simp only at h
      cases hv : interpolate lower (sectionOptions (configOf cc blocks) c!"config") 10 text with
      | error e => rw [hv] at h; cases h
      | ok v =>
        rw [hv] at h
        simp only at h
        cases hp : parseInt v with
        | none => rw [hp] at h; cases h
        | some n' =>
          rw [hp] at h
          cases h
          have := (C118_expansion lower _ 10 text v).mp hv
          rw [hfun] at this
          exact .inr ⟨hs, v, ⟨text, ht, this⟩, hp⟩
  · next hs =>
    cases h
    refine .inl ⟨.inl ?_, rfl⟩
    intro b hb he
    exact hs ((get?_configOf_isSome cc blocks _).mpr ⟨b, hb, he⟩)

theorem get?_map_value {β γ : Type} (f : β → γ) (d : List (Str × β)) (k : Str) :
    Dict.get? (d.map (fun t => (t.1, f t.2))) k = (Dict.get? d k).map f := by
  induction d with
  | nil => rfl
  | cons p d ih =>
    obtain ⟨k', v⟩ := p
    rw [List.map_cons, Dict.get?, Dict.get?]
    split
    · rfl
    · exact ih

/-- C118: the segmentation configuration has an entry for every option of the section `tags` and the numbers of the
section `config` or their defaults. -/
theorem C118_segmentation (cc : CharClass) (lower : Str → Str) (parseInt : Str → Option Int) (parseList : Str → List Str)
    (lines : List Str) (blocks : List ConfigBlock) (h : FileBlocks cc lower lines blocks) (hr : NoRepetition blocks) (cfg : SegConfig)
    (hc : parseSegConfig cc lower parseInt parseList lines = .ok cfg) :
    (∃ b ∈ blocks, b.name = c!"tags") ∧
    (∀ k vals, cfg.mapping.get? k = some vals ↔ ∃ v, OptionValue cc lower blocks c!"tags" k v ∧ vals = parseList v) ∧
    NumberOption cc lower parseInt blocks c!"front_max_start_line_index" 0 cfg.frontMaxStartLineIndex ∧
    NumberOption cc lower parseInt blocks c!"page_header_max_first_line_index" 50 cfg.pageHeaderMaxFirstLineIndex ∧
    cfg.noMergeReferences = false := by
  unfold parseSegConfig at hc
  rw [(C117_read cc lower lines blocks h).1 hr] at hc
  simp only at hc
  cases h1 : configInt lower parseInt (configOf cc blocks) c!"config" c!"front_max_start_line_index" 0 with
  | error e => rw [h1] at hc; cases hc
  | ok front =>
    rw [h1] at hc
    simp only at hc
    cases h2 : configInt lower parseInt (configOf cc blocks) c!"config" c!"page_header_max_first_line_index" 50 with
    | error e => rw [h2] at hc; cases hc
    | ok page =>
      rw [h2] at hc
      simp only at hc
      split at hc
      · next hs =>
        cases h3 : configItems lower (configOf cc blocks) c!"tags" with
        | error e => rw [h3] at hc; cases hc
        | ok tags =>
          rw [h3] at hc
          cases hc
          refine ⟨(get?_configOf_isSome cc blocks _).mp hs, ?_, configInt_spec cc lower parseInt blocks hr _ _ _ h1,
            configInt_spec cc lower parseInt blocks hr _ _ _ h2, rfl⟩
          intro k vals
          show Dict.get? (tags.map (fun t => (t.1, parseList t.2))) k = some vals ↔ _
          rw [get?_map_value]
          have hk := (configItems_spec cc lower blocks hr c!"tags").1 tags h3 k
          cases hg : Dict.get? tags k with
          | none =>
            constructor
            · intro h; cases h
            · rintro ⟨v, hv, _⟩
              have := (hk v).mpr hv
              rw [hg] at this; cases this
          | some v =>
            simp only [Option.map_some, Option.some.injEq]
            constructor
            · rintro rfl; exact ⟨v, (hk v).mp hg, rfl⟩
            · rintro ⟨v', hv', rfl⟩
              have := (hk v').mpr hv'
              rw [hg] at this
              cases this; rfl
      · cases hc

/-! ### Examples -/

/-- Lower case of ASCII texts. -/
def asciiLower (s : Str) : Str := s.map Char.toLower

/-- A file with a comment, a value over several lines, a default and a reference. -/
def configExample : List Str :=
  [c!"# comment", c!"[DEFAULT]", c!"base = x", c!"", c!"[article]", c!"Title = front/title", c!"  # comment", c!"  front/name", c!"a: %(base)s/%%", c!""]

example : readConfig asciiClass asciiLower configExample = .ok
    [(c!"DEFAULT", [(c!"base", c!"x")]), (c!"article", [(c!"title", c!"front/title\nfront/name"), (c!"a", c!"%(base)s/%%")])] := by
  rfl

example : (match parseXmlMapping asciiClass asciiLower configExample with
    | .ok m => m
    | .error _ => []) = [(c!"article", [(c!"base", c!"x"), (c!"title", c!"front/title\nfront/name"), (c!"a", c!"x/%")])] := by
  decide +kernel

/-- Errors: an option in front of the first section, a repeated option and section, a percent sign. -/
example : (readConfig asciiClass asciiLower [c!"a = b"]).toOption = none ∧
    (readConfig asciiClass asciiLower [c!"[s]", c!"a = b", c!"A = c"]).toOption = none ∧
    (readConfig asciiClass asciiLower [c!"[s]", c!"[s]"]).toOption = none ∧
    (parseXmlMapping asciiClass asciiLower [c!"[s]", c!"a = 5 % b"]).toOption = none := by decide +kernel

/-- The parts of the example file meet the hypotheses. -/
example : ∃ blocks, FileBlocks asciiClass asciiLower configExample blocks ∧ NoRepetition blocks ∧
    uniqueKeys (blocks.map (·.name)) = [c!"DEFAULT", c!"article"] := by
  obtain ⟨blocks, h1, h2, h3⟩ := C117_only asciiClass asciiLower configExample _ rfl
  refine ⟨blocks, h1, h2, ?_⟩
  rw [← names_configOf asciiClass, ← h3]
  rfl

end Verif
