/-
Lemmas about reading configuration files.
-/
import Verif.Spec.ConfigFile
import Verif.Lemmas.Dict
import Verif.Lemmas.SegHeaders

namespace Verif
open Spec

/-! ## Lines -/

theorem comment_iff (cc : CharClass) (l : Str) :
    ((strip cc l).head? = some '#' ∨ (strip cc l).head? = some ';') ↔ IsComment cc l := by
  unfold IsComment
  cases strip cc l with
  | nil => simp
  | cons c s =>
    simp only [List.head?_cons, Option.some.injEq, List.cons.injEq]
    constructor
    · rintro (h | h)
      · exact ⟨s, .inl ⟨h, rfl⟩⟩
      · exact ⟨s, .inr ⟨h, rfl⟩⟩
    · rintro ⟨_, ⟨h, _⟩ | ⟨h, _⟩⟩
      · exact .inl h
      · exact .inr h

theorem iniHeader_iff (v name : Str) : iniHeader v = some name ↔ ∃ rest, v = '[' :: (name ++ ']' :: rest) ∧ name ≠ [] ∧ ']' ∉ name := by
  have hkey : ∀ s : Str, (s.takeWhile (fun c => c ≠ ']')).length < s.length → ∃ rest, s = s.takeWhile (fun c => c ≠ ']') ++ ']' :: rest := by
    intro s
    induction s with
    | nil => simp
    | cons c s ih =>
      intro h
      by_cases hc : c = ']'
      · subst hc; exact ⟨s, by simp⟩
      · rw [List.takeWhile_cons_of_pos (by simpa using hc)] at h ⊢
        obtain ⟨rest, hr⟩ := ih (by simpa using h)
        exact ⟨rest, by rw [List.cons_append, ← hr]⟩
  constructor
  · intro h
    unfold iniHeader at h
    split at h
    · next s =>
      simp only at h
      split at h
      · next hh =>
        cases h
        obtain ⟨rest, hr⟩ := hkey s hh.2
        refine ⟨rest, by rw [← hr], hh.1, ?_⟩
        intro hm
        have := List.all_takeWhile (p := fun c : Char => decide (c ≠ ']')) (l := s)
        rw [List.all_eq_true] at this
        have := this _ hm
        simp at this
      · cases h
    · cases h
  · rintro ⟨rest, rfl, hne, hm⟩
    unfold iniHeader
    have ht : (name ++ ']' :: rest).takeWhile (fun c => decide (c ≠ ']')) = name := by
      rw [List.takeWhile_append_of_pos (by intro c hc; simp; rintro rfl; exact hm hc)]
      simp
    simp only
    rw [ht, if_pos ⟨hne, by simp⟩]

theorem iniHeader_none (cc : CharClass) (l : Str) : iniHeader (strip cc l) = none ↔ ∀ h, ¬ HeaderLine cc l h := by
  constructor
  · intro h name hn
    have := (iniHeader_iff _ name).mpr hn
    rw [h] at this; cases this
  · intro h
    cases hh : iniHeader (strip cc l) with
    | none => rfl
    | some name => exact absurd ((iniHeader_iff _ name).mp hh) (h name)

theorem iniOption_iff (cc : CharClass) (lower : Str → Str) (v name text : Str) : iniOption cc lower v = some (name, text) ↔
    ∃ key d rest, v = key ++ d :: rest ∧ (d = '=' ∨ d = ':') ∧ '=' ∉ key ∧ ':' ∉ key ∧ name = lower (rstrip cc key) ∧ text = strip cc rest := by
  have hkey : ∀ s : Str, s.any isDelimiter = true → ∃ key d rest, s = key ++ d :: rest ∧ isDelimiter d = true ∧
      (∀ c ∈ key, isDelimiter c = false) ∧ s.takeWhile (fun c => !isDelimiter c) = key ∧ s.dropWhile (fun c => !isDelimiter c) = d :: rest := by
    intro s
    induction s with
    | nil => simp
    | cons c s ih =>
      intro h
      by_cases hc : isDelimiter c = true
      · exact ⟨[], c, s, rfl, hc, by simp, by simp [hc], by simp [hc]⟩
      · rw [List.any_cons, Bool.or_eq_true] at h
        obtain ⟨key, d, rest, h1, h2, h3, h4, h5⟩ := ih (h.resolve_left hc)
        have hc' : isDelimiter c = false := by simpa using hc
        refine ⟨c :: key, d, rest, by rw [h1]; rfl, h2, ?_, ?_, ?_⟩
        · intro x hx
          rcases List.mem_cons.mp hx with rfl | hx
          · exact hc'
          · exact h3 x hx
        · rw [List.takeWhile_cons_of_pos (by simp [hc']), h4]
        · rw [List.dropWhile_cons_of_pos (by simp [hc']), h5]
  have hd : ∀ d, isDelimiter d = true ↔ d = '=' ∨ d = ':' := by intro d; simp [isDelimiter]
  unfold iniOption
  constructor
  · intro h
    split at h
    · next ha =>
      obtain ⟨key, d, rest, h1, h2, h3, h4, h5⟩ := hkey v ha
      rw [h4, h5] at h
      simp only [Option.some.injEq, Prod.mk.injEq, List.drop_succ_cons, List.drop_zero] at h
      exact ⟨key, d, rest, h1, (hd d).mp h2, fun hm => absurd (h3 _ hm) (by decide), fun hm => absurd (h3 _ hm) (by decide), h.1.symm, h.2.symm⟩
    · cases h
  · rintro ⟨key, d, rest, rfl, h1, h2, h3, rfl, rfl⟩
    have hk : ∀ c ∈ key, (!isDelimiter c) = true := by
      intro c hc
      simp only [Bool.not_eq_true']
      cases hb : isDelimiter c with
      | false => rfl
      | true =>
        rcases (hd c).mp hb with rfl | rfl
        · exact absurd hc h2
        · exact absurd hc h3
    have hdd := (hd d).mpr h1
    rw [if_pos]
    · rw [List.takeWhile_append_of_pos hk, List.dropWhile_append_of_pos hk]
      simp [hdd]
    · rw [List.any_append, List.any_cons, hdd]; simp

/-! ## Events -/

/-- A section is opened, or an option is given. -/
abbrev IniEvent := Str × Option (Str × List Str)

/-- The effect of an event on the sections. -/
def iniEvent (secs : Dict (Dict (List Str))) : IniEvent → Except Err (Dict (Dict (List Str)))
  | (s, none) =>
    if (secs.get? s).isSome ∧ s ≠ iniDefault then .error .exception
    else .ok (if (secs.get? s).isSome then secs else secs.set s [])
  | (s, some (k, ls)) =>
    if ((secs.getD s []).get? k).isSome then .error .exception
    else .ok (secs.set s ((secs.getD s []).set k ls))

/-- The effect of events. -/
def iniEvents (secs : Dict (Dict (List Str))) : List IniEvent → Except Err (Dict (Dict (List Str)))
  | [] => .ok secs
  | e :: es => match iniEvent secs e with
    | .error x => .error x
    | .ok secs => iniEvents secs es

theorem iniEvents_append (secs : Dict (Dict (List Str))) (a b : List IniEvent) : iniEvents secs (a ++ b) =
    match iniEvents secs a with
    | .error e => .error e
    | .ok secs => iniEvents secs b := by
  induction a generalizing secs with
  | nil => rfl
  | cons e a ih =>
    rw [List.cons_append, iniEvents, iniEvents]
    cases iniEvent secs e with
    | error x => rfl
    | ok s => exact ih s

/-- The events of the entries of a section. -/
def entryEvents (s : Str) (es : List ConfigEntry) : List IniEvent := es.map (fun e => (s, some (e.name, e.lines)))

/-- The events of sections. -/
def blockEvents (bs : List ConfigBlock) : List IniEvent := bs.flatMap (fun b => (b.name, none) :: entryEvents b.name b.entries)

/-- Reading lines gives the sections of the events. -/
def sameSections (a : Except Err IniState) (b : Except Err (Dict (Dict (List Str)))) : Prop :=
  match a, b with
  | .ok st, .ok secs => st.sections = secs
  | .error _, .error _ => True
  | _, _ => False

theorem iniLines_noise {cc : CharClass} {lower : Str → Str} {noise : List Str} (hn : ∀ n ∈ noise, IsComment cc n ∨ IsEmptyLine cc n)
    {st : IniState} (ho : st.opt = none) (ls : List Str) : iniLines cc lower st (noise ++ ls) = iniLines cc lower st ls := by
  have happ : ∀ v, st.append v = st := by
    intro v
    unfold IniState.append
    rw [ho]
    cases st.cur <;> rfl
  induction noise with
  | nil => rfl
  | cons n noise ih =>
    rw [List.cons_append, iniLines]
    have : iniLine cc lower st n = .ok st := by
      unfold iniLine
      simp only
      rcases hn n List.mem_cons_self with h | h
      · rw [if_pos ((comment_iff cc n).mpr h)]
      · have h : strip cc n = [] := h
        rw [h]
        simp [happ]
    rw [this]
    exact ih (fun m hm => hn m (List.mem_cons_of_mem _ hm))

theorem set_set {β : Type} (d : Dict β) (k : Str) (a b : β) : (d.set k a).set k b = d.set k b := by
  induction d with
  | nil => simp [Dict.set]
  | cons p d ih =>
    obtain ⟨k', v⟩ := p
    by_cases h : k' = k
    · simp [Dict.set, h]
    · simp [Dict.set, h, ih]

theorem getD_set_self {β : Type} (d : Dict β) (k : Str) (a x : β) : (d.set k a).getD k x = a := by
  unfold Dict.getD
  rw [Dict.get?_set_self]
  rfl

theorem iniLines_values {cc : CharClass} {lower : Str → Str} {vs texts : List Str} {indent : Nat} (hv : ValueLines cc indent vs texts)
    (sect o : Str) (secs : Dict (Dict (List Str))) (opts : Dict (List Str)) (old : List Str) (ls : List Str) :
    iniLines cc lower { sections := secs.set sect (opts.set o old), cur := some sect, opt := some o, indent := indent } (vs ++ ls) =
      iniLines cc lower { sections := secs.set sect (opts.set o (old ++ texts)), cur := some sect, opt := some o, indent := indent } ls := by
  have happ : ∀ (old : List Str) (v : Str), IniState.append { sections := secs.set sect (opts.set o old), cur := some sect, opt := some o, indent := indent } v =
      { sections := secs.set sect (opts.set o (old ++ [v])), cur := some sect, opt := some o, indent := indent } := by
    intro old v
    unfold IniState.append
    simp only [getD_set_self, set_set]
  induction hv generalizing old with
  | nil => simp
  | @comment l vs texts h hv ih =>
    rw [List.cons_append, iniLines]
    have : ∀ st, iniLine cc lower st l = .ok st := by
      intro st
      unfold iniLine
      simp only
      rw [if_pos ((comment_iff cc l).mpr h)]
    rw [this]
    exact ih old
  | @empty l vs texts h hv ih =>
    rw [List.cons_append, iniLines]
    have : ∀ st, iniLine cc lower st l = .ok (st.append []) := by
      intro st
      unfold iniLine
      have h : strip cc l = [] := h
      simp only
      rw [h]
      simp
    rw [this, happ]
    simp only
    rw [ih (old ++ [[]])]
    simp
  | @text l vs texts h1 h2 h hv ih =>
    rw [List.cons_append, iniLines]
    have : ∀ secs', iniLine cc lower { sections := secs', cur := some sect, opt := some o, indent := indent } l =
        .ok (IniState.append { sections := secs', cur := some sect, opt := some o, indent := indent } (strip cc l)) := by
      intro secs'
      unfold iniLine
      simp only
      rw [if_neg (fun hc => h1 ((comment_iff cc l).mp hc)), if_neg (show ¬ strip cc l = [] from h2), if_pos ⟨rfl, rfl, h⟩]
    rw [this, happ]
    simp only
    rw [ih (old ++ [strip cc l])]
    simp

/-- A line that is no continuation. -/
theorem iniLine_new {cc : CharClass} {lower : Str → Str} {st : IniState} {l : Str} (h1 : ¬ IsComment cc l) (h2 : ¬ IsEmptyLine cc l)
    (hi : st.opt = none ∨ indentOf cc l ≤ st.indent) : iniLine cc lower st l =
    match iniHeader (strip cc l) with
      | some name =>
        if (st.sections.get? name).isSome ∧ name ≠ iniDefault then .error .exception
        else .ok { sections := if (st.sections.get? name).isSome then st.sections else st.sections.set name []
                   cur := some name, opt := none, indent := indentOf cc l }
      | none => match st.cur with
        | none => .error .exception
        | some sect => match iniOption cc lower (strip cc l) with
          | none => .error .exception
          | some (name, text) =>
            if name = [] then .error .exception
            else if ((st.sections.getD sect []).get? name).isSome then .error .exception
            else .ok { st with sections := st.sections.set sect ((st.sections.getD sect []).set name [text])
                               opt := some name, indent := indentOf cc l } := by
  unfold iniLine
  simp only
  rw [if_neg (fun hc => h1 ((comment_iff cc l).mp hc)), if_neg (show ¬ strip cc l = [] from h2), if_neg]
  · rfl
  · rintro ⟨_, ho, hlt⟩
    rcases hi with hi | hi
    · rw [hi] at ho; cases ho
    · exact absurd hlt (Nat.not_lt.mpr hi)

theorem header_not_comment {cc : CharClass} {l name : Str} (h : HeaderLine cc l name) : ¬ IsComment cc l ∧ ¬ IsEmptyLine cc l := by
  obtain ⟨rest, h, _⟩ := h
  constructor
  · rintro ⟨r, hr | hr⟩ <;> rw [h] at hr <;> exact absurd (List.cons.inj hr).1 (by decide)
  · intro he
    have he : strip cc l = [] := he
    rw [h] at he; cases he

theorem iniLines_body {cc : CharClass} {lower : Str → Str} {ls : List Str} {es : List ConfigEntry} {bs : List ConfigBlock}
    (h : BodyLines cc lower ls es bs) (st : IniState) (sect : Str) (hc : es = [] ∨ st.cur = some sect)
    (hi : st.opt = none ∨ ∀ l, ls.head? = some l → indentOf cc l ≤ st.indent) :
    sameSections (iniLines cc lower st ls) (iniEvents st.sections (entryEvents sect es ++ blockEvents bs)) := by
  induction h generalizing st sect with
  | nil => rfl
  | @header l name noise ls es bs h hn hb ih =>
    obtain ⟨n1, n2⟩ := header_not_comment h
    have hh : iniHeader (strip cc l) = some name := (iniHeader_iff _ _).mpr h
    rw [iniLines, iniLine_new n1 n2 (hi.imp_right (fun hi => hi l rfl)), hh]
    simp only
    show sameSections _ (iniEvents st.sections ((name, none) :: (entryEvents name es ++ blockEvents bs)))
    rw [iniEvents, iniEvent]
    by_cases hd : (st.sections.get? name).isSome ∧ name ≠ iniDefault
    · rw [if_pos hd, if_pos hd]; trivial
    · rw [if_neg hd, if_neg hd]
      simp only
      rw [iniLines_noise hn rfl]
      exact ih _ name (.inr rfl) (.inl rfl)
  | @entry l name text ls vs texts es bs h hv hi' hb ih =>
    have hcur : st.cur = some sect := by
      rcases hc with hc | hc
      · cases hc
      · exact hc
    obtain ⟨key, d, rest, h1, h2, h3, h4, h5, h6, h7, h8, h9⟩ := h
    have n2 : ¬ IsEmptyLine cc l := by
      intro he
      have he : strip cc l = [] := he
      rw [h1] at he; simp at he
    have ho : iniOption cc lower (strip cc l) = some (name, text) := (iniOption_iff _ _ _ _ _).mpr ⟨key, d, rest, h1, h2, h3, h4, h5, h7⟩
    rw [iniLines, iniLine_new h8 n2 (hi.imp_right (fun hi => hi l rfl)), (iniHeader_none cc l).mpr h9, hcur]
    simp only [ho]
    rw [if_neg h6]
    show sameSections _ (iniEvents st.sections ((sect, some (name, text :: texts)) :: (entryEvents sect es ++ blockEvents bs)))
    rw [iniEvents, iniEvent]
    by_cases hd : ((st.sections.getD sect []).get? name).isSome = true
    · rw [if_pos hd, if_pos hd]; trivial
    · rw [if_neg hd, if_neg hd]
      simp only
      have := iniLines_values (lower := lower) hv sect name st.sections (st.sections.getD sect []) [text] ls
      rw [this]
      exact ih _ sect (.inr rfl) (.inr hi')

/-! ## Completeness -/

theorem body_of_ok {cc : CharClass} {lower : Str → Str} (lines : List Str) (st st' : IniState) (h : iniLines cc lower st lines = .ok st') :
    (st.opt = none → ∃ noise ls es bs, lines = noise ++ ls ∧ (∀ n ∈ noise, IsComment cc n ∨ IsEmptyLine cc n) ∧
      BodyLines cc lower ls es bs ∧ (st.cur = none → es = [])) ∧
    (st.opt ≠ none → st.cur ≠ none → ∃ vs texts ls es bs, lines = vs ++ ls ∧ ValueLines cc st.indent vs texts ∧
      (∀ l, ls.head? = some l → indentOf cc l ≤ st.indent) ∧ BodyLines cc lower ls es bs) := by
  induction lines generalizing st with
  | nil =>
    exact ⟨fun _ => ⟨[], [], [], [], rfl, by simp, .nil, fun _ => rfl⟩, fun _ _ => ⟨[], [], [], [], [], rfl, .nil, by simp, .nil⟩⟩
  | cons l lines ih =>
    rw [iniLines] at h
    cases hl : iniLine cc lower st l with
    | error e => rw [hl] at h; cases h
    | ok st1 =>
      rw [hl] at h
      have ih := ih st1 h
      by_cases n1 : IsComment cc l
      · have he : st1 = st := by
          unfold iniLine at hl
          simp only at hl
          rw [if_pos ((comment_iff cc l).mpr n1)] at hl
          exact (Except.ok.inj hl).symm
        subst he
        constructor
        · intro ho
          obtain ⟨noise, ls, es, bs, rfl, hn, hb, hc⟩ := ih.1 ho
          refine ⟨l :: noise, ls, es, bs, rfl, ?_, hb, hc⟩
          intro n hm
          rcases List.mem_cons.mp hm with rfl | hm
          · exact .inl n1
          · exact hn n hm
        · intro ho hcur
          obtain ⟨vs, texts, ls, es, bs, rfl, hv, hi, hb⟩ := ih.2 ho hcur
          exact ⟨l :: vs, texts, ls, es, bs, rfl, .comment n1 hv, hi, hb⟩
      · by_cases n2 : IsEmptyLine cc l
        · have he : st1 = st.append [] := by
            unfold iniLine at hl
            have h2 : strip cc l = [] := n2
            simp only at hl
            rw [if_neg (fun hc => n1 ((comment_iff cc l).mp hc)), if_pos h2] at hl
            exact (Except.ok.inj hl).symm
          constructor
          · intro ho
            have he : st1 = st := by
              rw [he]
              unfold IniState.append
              rw [ho]
              cases st.cur <;> rfl
            subst he
            obtain ⟨noise, ls, es, bs, rfl, hn, hb, hc⟩ := ih.1 ho
            refine ⟨l :: noise, ls, es, bs, rfl, ?_, hb, hc⟩
            intro n hm
            rcases List.mem_cons.mp hm with rfl | hm
            · exact .inr n2
            · exact hn n hm
          · intro ho hcur
            have hs : st1.opt = st.opt ∧ st1.cur = st.cur ∧ st1.indent = st.indent := by
              rw [he]
              unfold IniState.append
              split <;> exact ⟨rfl, rfl, rfl⟩
            rw [hs.1, hs.2.1, hs.2.2] at ih
            obtain ⟨vs, texts, ls, es, bs, rfl, hv, hi, hb⟩ := ih.2 ho hcur
            exact ⟨l :: vs, [] :: texts, ls, es, bs, rfl, .empty n2 hv, hi, hb⟩
        · -- a continuation, a header or an option
          have hnew : (st.opt = none ∨ indentOf cc l ≤ st.indent) → ∃ es bs, BodyLines cc lower (l :: lines) es bs ∧ (st.cur = none → es = []) := by
            intro hi
            rw [iniLine_new n1 n2 hi] at hl
            cases hh : iniHeader (strip cc l) with
            | some name =>
              rw [hh] at hl
              simp only at hl
              split at hl
              · cases hl
              · have hl := Except.ok.inj hl
                obtain ⟨noise, ls, es, bs, rfl, hn, hb, hc⟩ := ih.1 (by rw [← hl])
                exact ⟨[], ⟨name, es⟩ :: bs, .header ((iniHeader_iff _ _).mp hh) hn hb, fun _ => rfl⟩
            | none =>
              rw [hh] at hl
              simp only at hl
              cases hcur : st.cur with
              | none => rw [hcur] at hl; cases hl
              | some sect =>
                rw [hcur] at hl
                simp only at hl
                cases ho : iniOption cc lower (strip cc l) with
                | none => rw [ho] at hl; cases hl
                | some q =>
                  obtain ⟨name, text⟩ := q
                  rw [ho] at hl
                  simp only at hl
                  split at hl
                  · cases hl
                  · next hne =>
                    split at hl
                    · cases hl
                    · have hl := Except.ok.inj hl
                      obtain ⟨key, d, rest, h1, h2, h3, h4, h5, h6⟩ := (iniOption_iff _ _ _ _ _).mp ho
                      obtain ⟨vs, texts, ls, es, bs, rfl, hv, hi, hb⟩ := ih.2 (by rw [← hl]; simp) (by rw [← hl]; simp)
                      rw [← hl] at hv hi
                      exact ⟨⟨name, text :: texts⟩ :: es, bs,
                        .entry ⟨key, d, rest, h1, h2, h3, h4, h5, hne, h6, n1, (iniHeader_none cc l).mp hh⟩ hv hi hb, fun h => by cases h⟩
          constructor
          · intro ho
            obtain ⟨es, bs, hb, hc⟩ := hnew (.inl ho)
            exact ⟨[], l :: lines, es, bs, rfl, by simp, hb, hc⟩
          · intro ho hcur
            by_cases hlt : st.indent < indentOf cc l
            · have he : st1 = st.append (strip cc l) := by
                unfold iniLine at hl
                simp only at hl
                rw [if_neg (fun hc => n1 ((comment_iff cc l).mp hc)), if_neg (show ¬ strip cc l = [] from n2), if_pos ⟨Option.isSome_iff_ne_none.mpr hcur, Option.isSome_iff_ne_none.mpr ho, hlt⟩] at hl
                exact (Except.ok.inj hl).symm
              have hs : st1.opt = st.opt ∧ st1.cur = st.cur ∧ st1.indent = st.indent := by
                rw [he]
                unfold IniState.append
                split <;> exact ⟨rfl, rfl, rfl⟩
              rw [hs.1, hs.2.1, hs.2.2] at ih
              obtain ⟨vs, texts, ls, es, bs, rfl, hv, hi, hb⟩ := ih.2 ho hcur
              exact ⟨l :: vs, strip cc l :: texts, ls, es, bs, rfl, .text n1 n2 hlt hv, hi, hb⟩
            · obtain ⟨es, bs, hb, _⟩ := hnew (.inr (Nat.not_lt.mp hlt))
              exact ⟨[], [], l :: lines, es, bs, rfl, .nil, by rintro l' h; cases h; exact Nat.not_lt.mp hlt, hb⟩

/-! ## The sections of events -/

/-- The names of sections in events. -/
def eventNames (ev : List IniEvent) : List Str := ev.map (·.1)

/-- The options of a section in events. -/
def eventOptions (ev : List IniEvent) (s : Str) : List (Str × List Str) := (ev.filter (fun e => e.1 = s)).filterMap (·.2)

/-- The sections of events. -/
def eventSections (ev : List IniEvent) : Dict (Dict (List Str)) := (uniqueKeys (eventNames ev)).map (fun s => (s, eventOptions ev s))

theorem uniqueKeys_snoc {α : Type} [DecidableEq α] (l : List α) (a : α) :
    uniqueKeys (l ++ [a]) = if a ∈ l then uniqueKeys l else uniqueKeys l ++ [a] := by
  induction l with
  | nil => simp [uniqueKeys]
  | cons b l ih =>
    rw [List.cons_append, uniqueKeys, ih]
    by_cases hab : a = b
    · subst hab
      simp only [List.mem_cons, true_or, if_true]
      split
      · rfl
      · rw [List.filter_append]
        simp [uniqueKeys]
    · simp only [List.mem_cons, hab, false_or]
      split
      · rfl
      · rw [List.filter_append]
        simp [uniqueKeys, hab]

theorem get?_map_keys {β : Type} (ks : List Str) (f : Str → β) (k : Str) :
    Dict.get? (ks.map (fun s => (s, f s))) k = if k ∈ ks then some (f k) else none := by
  induction ks with
  | nil => rfl
  | cons a ks ih =>
    rw [List.map_cons, Dict.get?]
    by_cases h : a = k
    · subst h; simp
    · rw [if_neg h, ih]
      have : (k ∈ a :: ks) ↔ k ∈ ks := by simp [Ne.symm h]
      simp only [this]

theorem set_map_keys {β : Type} (ks : List Str) (hnd : ks.Nodup) (f g : Str → β) (k : Str) (hg : ∀ s, s ≠ k → g s = f s) :
    Dict.set (ks.map (fun s => (s, f s))) k (g k) = (if k ∈ ks then ks else ks ++ [k]).map (fun s => (s, g s)) := by
  induction ks with
  | nil => simp [Dict.set]
  | cons a ks ih =>
    rw [List.nodup_cons] at hnd
    rw [List.map_cons, Dict.set]
    by_cases h : a = k
    · subst h
      rw [if_pos rfl, if_pos (by simp), List.map_cons]
      congr 1
      apply List.map_congr_left
      intro s hs
      rw [hg s (by rintro rfl; exact hnd.1 hs)]
    · rw [if_neg h, ih hnd.2]
      have : (k ∈ a :: ks) ↔ k ∈ ks := by simp [Ne.symm h]
      simp only [this]
      split <;> simp [hg a h]

theorem nodup_uniqueKeys {α : Type} [DecidableEq α] (l : List α) : (uniqueKeys l).Nodup := by
  induction l with
  | nil => exact List.nodup_nil
  | cons a l ih =>
    rw [uniqueKeys, List.nodup_cons]
    exact ⟨by simp, ih.filter _⟩

theorem set_new {β : Type} (d : List (Str × β)) (k : Str) (v : β) (h : Dict.get? d k = none) : Dict.set d k v = d ++ [(k, v)] := by
  induction d with
  | nil => rfl
  | cons p d ih =>
    obtain ⟨k', v'⟩ := p
    rw [Dict.get?] at h
    split at h
    · cases h
    · next hne => rw [Dict.set, if_neg hne, ih h]; rfl

theorem get?_isSome_keys {β : Type} (d : List (Str × β)) (k : Str) : (Dict.get? d k).isSome ↔ k ∈ d.map (·.1) := by
  induction d with
  | nil => simp [Dict.get?]
  | cons p d ih =>
    obtain ⟨k', v⟩ := p
    rw [Dict.get?]
    by_cases h : k' = k
    · subst h; simp
    · rw [if_neg h, ih]; simp [Ne.symm h]

/-- The event can follow the events before it. -/
def eventAllowed (ev : List IniEvent) : IniEvent → Prop
  | (s, none) => s ∈ eventNames ev → s = iniDefault
  | (s, some (k, _)) => k ∉ (eventOptions ev s).map (·.1)

theorem getD_eventSections (ev : List IniEvent) (s : Str) : Dict.getD (eventSections ev) s [] = eventOptions ev s := by
  unfold Dict.getD eventSections
  rw [get?_map_keys]
  split
  · rfl
  · next h =>
    rw [mem_uniqueKeys] at h
    unfold eventOptions
    have : ev.filter (fun e => decide (e.1 = s)) = [] := by
      rw [List.filter_eq_nil_iff]
      intro e he
      simp only [decide_eq_true_eq]
      intro hs
      exact h (List.mem_map.mpr ⟨e, he, hs⟩)
    rw [this]; rfl

theorem iniEvent_step (ev : List IniEvent) (e : IniEvent) :
    (eventAllowed ev e → iniEvent (eventSections ev) e = .ok (eventSections (ev ++ [e]))) ∧
    (¬ eventAllowed ev e → iniEvent (eventSections ev) e = .error .exception) := by
  have hopt : ∀ s, s ≠ e.1 → eventOptions (ev ++ [e]) s = eventOptions ev s := by
    intro s hs
    unfold eventOptions
    rw [List.filter_append]
    simp [Ne.symm hs]
  have hnames : eventNames (ev ++ [e]) = eventNames ev ++ [e.1] := by simp [eventNames]
  have hset := set_map_keys (uniqueKeys (eventNames ev)) (nodup_uniqueKeys _) (eventOptions ev) (eventOptions (ev ++ [e])) e.1 hopt
  have hres : Dict.set (eventSections ev) e.1 (eventOptions (ev ++ [e]) e.1) = eventSections (ev ++ [e]) := by
    unfold eventSections at hset ⊢
    rw [hset, hnames, uniqueKeys_snoc]
    by_cases hm : e.1 ∈ eventNames ev
    · rw [if_pos hm, if_pos ((mem_uniqueKeys _ _).mpr hm)]
    · rw [if_neg hm, if_neg (fun hh => hm ((mem_uniqueKeys _ _).mp hh))]
  obtain ⟨s, o⟩ := e
  have hsome : ((Dict.get? (eventSections ev) s).isSome = true) ↔ s ∈ eventNames ev := by
    unfold eventSections
    rw [get?_map_keys]
    by_cases h : s ∈ eventNames ev
    · rw [if_pos ((mem_uniqueKeys _ _).mpr h)]; simp [h]
    · rw [if_neg (fun hh => h ((mem_uniqueKeys _ _).mp hh))]; simp [h]
  cases o with
  | none =>
    have hE : eventOptions (ev ++ [(s, none)]) s = eventOptions ev s := by
      unfold eventOptions
      rw [List.filter_append, List.filterMap_append]
      simp
    unfold eventAllowed iniEvent
    simp only [hsome]
    constructor
    · intro h
      rw [if_neg (fun hh => hh.2 (h hh.1))]
      by_cases hm : s ∈ eventNames ev
      · rw [if_pos hm]
        congr 1
        rw [← hres]
        simp only [hE]
        -- setting the same value again
        unfold eventSections
        have := set_map_keys (uniqueKeys (eventNames ev)) (nodup_uniqueKeys _) (eventOptions ev) (eventOptions ev) s (fun _ _ => rfl)
        rw [this, if_pos ((mem_uniqueKeys _ _).mpr hm)]
      · rw [if_neg hm, ← hres]
        simp only [hE]
        have : eventOptions ev s = [] := by
          rw [← getD_eventSections]
          unfold Dict.getD
          have : Dict.get? (eventSections ev) s = none := by
            cases hg : Dict.get? (eventSections ev) s with
            | none => rfl
            | some v => exact absurd (hsome.mp (by rw [hg]; rfl)) hm
          rw [this]; rfl
        rw [this]
    · intro h
      rw [if_pos]
      by_cases hm : s ∈ eventNames ev
      · exact ⟨hm, fun hd => h (fun _ => hd)⟩
      · exact absurd (fun hh => absurd hh hm) h
  | some kl =>
    obtain ⟨k, ls⟩ := kl
    have hE : eventOptions (ev ++ [(s, some (k, ls))]) s = eventOptions ev s ++ [(k, ls)] := by
      unfold eventOptions
      rw [List.filter_append, List.filterMap_append]
      simp
    unfold eventAllowed iniEvent
    simp only [getD_eventSections]
    constructor
    · intro h
      rw [if_neg (fun hh => h ((get?_isSome_keys _ _).mp hh)), ← hres]
      simp only [hE]
      rw [set_new (eventOptions ev s)]
      cases hg : Dict.get? (eventOptions ev s) k with
      | none => rfl
      | some v => exact absurd ((get?_isSome_keys _ _).mp (by rw [hg]; rfl)) h
    · intro h
      rw [if_pos]
      exact (get?_isSome_keys _ _).mpr (Classical.byContradiction h)

/-- All events can follow those before them. -/
def eventsAllowed (ev : List IniEvent) : List IniEvent → Prop
  | [] => True
  | e :: es => eventAllowed ev e ∧ eventsAllowed (ev ++ [e]) es

theorem iniEvents_spec (ev es : List IniEvent) :
    (eventsAllowed ev es → iniEvents (eventSections ev) es = .ok (eventSections (ev ++ es))) ∧
    (¬ eventsAllowed ev es → iniEvents (eventSections ev) es = .error .exception) := by
  induction es generalizing ev with
  | nil => exact ⟨fun _ => by simp [iniEvents], fun h => absurd trivial h⟩
  | cons e es ih =>
    obtain ⟨h1, h2⟩ := iniEvent_step ev e
    rw [iniEvents]
    constructor
    · rintro ⟨ha, hb⟩
      rw [h1 ha]
      simp only
      rw [(ih (ev ++ [e])).1 hb]
      simp
    · intro h
      by_cases ha : eventAllowed ev e
      · rw [h1 ha]
        exact (ih (ev ++ [e])).2 (fun hb => h ⟨ha, hb⟩)
      · rw [h2 ha]

/-! ## The events of sections -/

theorem eventsAllowed_append (ev a b : List IniEvent) : eventsAllowed ev (a ++ b) ↔ eventsAllowed ev a ∧ eventsAllowed (ev ++ a) b := by
  induction a generalizing ev with
  | nil => simp [eventsAllowed]
  | cons e a ih =>
    rw [List.cons_append, eventsAllowed, eventsAllowed, ih]
    simp [and_assoc]

/-- All sections can be opened. -/
def opensAllowed (ev : List IniEvent) : List IniEvent → Prop
  | [] => True
  | e :: es => (e.2 = none → e.1 ∈ eventNames ev → e.1 = iniDefault) ∧ opensAllowed (ev ++ [e]) es

theorem eventOptions_append (a b : List IniEvent) (s : Str) : eventOptions (a ++ b) s = eventOptions a s ++ eventOptions b s := by
  unfold eventOptions
  rw [List.filter_append, List.filterMap_append]

theorem eventsAllowed_iff (ev es : List IniEvent) (hnd : ∀ s, ((eventOptions ev s).map (·.1)).Nodup) :
    eventsAllowed ev es ↔ opensAllowed ev es ∧ ∀ s, ((eventOptions (ev ++ es) s).map (·.1)).Nodup := by
  induction es generalizing ev with
  | nil => simp [eventsAllowed, opensAllowed, hnd]
  | cons e es ih =>
    have hap : ev ++ e :: es = (ev ++ [e]) ++ es := by simp
    obtain ⟨s, o⟩ := e
    rw [eventsAllowed, opensAllowed, hap]
    cases o with
    | none =>
      have : ∀ t, eventOptions (ev ++ [(s, none)]) t = eventOptions ev t := by
        intro t
        rw [eventOptions_append]
        unfold eventOptions
        by_cases h : s = t <;> simp [h]
      rw [ih _ (fun t => by rw [this]; exact hnd t)]
      simp only [eventAllowed, true_implies]
      rw [and_assoc]
    | some kl =>
      obtain ⟨k, ls⟩ := kl
      have hs : eventOptions (ev ++ [(s, some (k, ls))]) s = eventOptions ev s ++ [(k, ls)] := by
        rw [eventOptions_append]
        simp [eventOptions]
      have ho : ∀ t, t ≠ s → eventOptions (ev ++ [(s, some (k, ls))]) t = eventOptions ev t := by
        intro t ht
        rw [eventOptions_append]
        simp [eventOptions, Ne.symm ht]
      simp only [eventAllowed, reduceCtorEq, false_implies, true_and]
      by_cases hk : k ∈ (eventOptions ev s).map (·.1)
      · constructor
        · rintro ⟨h, _⟩; exact absurd hk h
        · rintro ⟨_, h⟩
          have := h s
          rw [eventOptions_append, hs, List.map_append, List.map_append, List.append_assoc, List.nodup_append] at this
          exact absurd rfl (this.2.2 k hk k (by simp))
      · rw [ih]
        · exact ⟨fun h => h.2, fun h => ⟨hk, h⟩⟩
        · intro t
          by_cases ht : t = s
          · subst ht
            rw [hs, List.map_append, List.nodup_append]
            refine ⟨hnd t, by simp, ?_⟩
            rintro x hx y hy rfl
            simp at hy
            subst hy
            exact hk hx
          · rw [ho t ht]; exact hnd t

theorem opensAllowed_append (ev a b : List IniEvent) : opensAllowed ev (a ++ b) ↔ opensAllowed ev a ∧ opensAllowed (ev ++ a) b := by
  induction a generalizing ev with
  | nil => simp [opensAllowed]
  | cons e a ih =>
    rw [List.cons_append, opensAllowed, opensAllowed, ih]
    simp [and_assoc]

theorem opensAllowed_entries (ev : List IniEvent) (s : Str) (es : List ConfigEntry) : opensAllowed ev (entryEvents s es) := by
  induction es generalizing ev with
  | nil => trivial
  | cons e es ih => exact ⟨fun h => (by cases h), ih _⟩

theorem opensAllowed_blocks (ev : List IniEvent) (bs : List ConfigBlock) : opensAllowed ev (blockEvents bs) ↔
    ∀ s, s ≠ iniDefault → (bs.map (·.name)).count s ≤ 1 ∧ (s ∈ eventNames ev → s ∉ bs.map (·.name)) := by
  induction bs generalizing ev with
  | nil => simp [blockEvents, opensAllowed]
  | cons b bs ih =>
    have e : blockEvents (b :: bs) = (b.name, none) :: (entryEvents b.name b.entries ++ blockEvents bs) := rfl
    rw [e, opensAllowed, opensAllowed_append, ih]
    have hn : ∀ s, s ∈ eventNames (ev ++ [(b.name, none)] ++ entryEvents b.name b.entries) ↔ s ∈ eventNames ev ∨ s = b.name := by
      intro s
      unfold eventNames entryEvents
      simp only [List.map_append, List.map_map, List.mem_append, List.map_cons, List.map_nil, List.mem_singleton, List.mem_map, Function.comp]
      constructor
      · rintro ((h | h) | ⟨_, _, h⟩)
        · exact .inl h
        · exact .inr h
        · exact .inr h.symm
      · rintro (h | h)
        · exact .inl (.inl h)
        · exact .inl (.inr h)
    constructor
    · rintro ⟨h1, _, h2⟩ s hs
      obtain ⟨h3, h4⟩ := h2 s hs
      rw [hn] at h4
      rw [List.map_cons, List.count_cons]
      by_cases hb : b.name = s
      · subst hb
        have h0 : (bs.map (·.name)).count b.name = 0 := List.count_eq_zero.mpr (h4 (.inr rfl))
        refine ⟨by simp [h0], ?_⟩
        intro hm
        exact absurd (h1 rfl hm) hs
      · refine ⟨by simpa [hb] using h3, ?_⟩
        intro hm
        simp only [List.mem_cons, not_or]
        exact ⟨Ne.symm hb, h4 (.inl hm)⟩
    · intro h
      refine ⟨?_, opensAllowed_entries _ _ _, ?_⟩
      · intro _ hm
        apply Classical.byContradiction
        intro hd
        exact (h b.name hd).2 hm (by simp)
      · intro s hs
        obtain ⟨h3, h4⟩ := h s hs
        rw [List.map_cons, List.count_cons] at h3
        refine ⟨by omega, ?_⟩
        rw [hn]
        rintro (hm | rfl)
        · have := h4 hm
          simp only [List.map_cons, List.mem_cons, not_or] at this
          exact this.2
        · simp only [beq_self_eq_true, if_true] at h3
          exact List.count_eq_zero.mp (by omega)

theorem eventOptions_blocks (bs : List ConfigBlock) (s : Str) :
    eventOptions (blockEvents bs) s = (entriesOf bs s).map (fun e => (e.name, e.lines)) := by
  induction bs with
  | nil => rfl
  | cons b bs ih =>
    have e : blockEvents (b :: bs) = [(b.name, none)] ++ (entryEvents b.name b.entries ++ blockEvents bs) := rfl
    rw [e, eventOptions_append, eventOptions_append, ih]
    have h1 : eventOptions [(b.name, none)] s = [] := by
      unfold eventOptions
      by_cases h : b.name = s <;> simp [h]
    rw [h1, List.nil_append]
    unfold entriesOf
    by_cases h : b.name = s
    · have : eventOptions (entryEvents b.name b.entries) s = b.entries.map (fun e => (e.name, e.lines)) := by
        unfold eventOptions entryEvents
        rw [List.filter_eq_self.mpr (by intro a ha; obtain ⟨x, _, rfl⟩ := List.mem_map.mp ha; simpa using h), List.filterMap_map]
        induction b.entries with
        | nil => rfl
        | cons x xs ih => simp [ih]
      rw [this, List.filter_cons_of_pos (by simpa using h), List.flatMap_cons, List.map_append]
    · have : eventOptions (entryEvents b.name b.entries) s = [] := by
        unfold eventOptions entryEvents
        rw [List.filter_eq_nil_iff.mpr (by intro a ha; obtain ⟨x, _, rfl⟩ := List.mem_map.mp ha; simpa using h)]
        rfl
      rw [this, List.filter_cons_of_neg (by simpa using h), List.nil_append]

theorem uniqueKeys_block (ks : List Str) (bs : List ConfigBlock) (ev : List IniEvent) (h : ∀ s, s ∈ eventNames ev ↔ s ∈ ks)
    (hu : uniqueKeys (eventNames ev) = uniqueKeys ks) :
    uniqueKeys (eventNames (ev ++ blockEvents bs)) = uniqueKeys (ks ++ bs.map (·.name)) := by
  induction bs generalizing ks ev with
  | nil => simpa [blockEvents] using hu
  | cons b bs ih =>
    have e : blockEvents (b :: bs) = ((b.name, none) :: entryEvents b.name b.entries) ++ blockEvents bs := rfl
    rw [e, ← List.append_assoc, List.map_cons, show ks ++ b.name :: bs.map (·.name) = (ks ++ [b.name]) ++ bs.map (·.name) by simp]
    have hrep : ∀ (es : List ConfigEntry) (ev' : List IniEvent), b.name ∈ eventNames ev' →
        uniqueKeys (eventNames (ev' ++ entryEvents b.name es)) = uniqueKeys (eventNames ev') ∧
        ∀ s, s ∈ eventNames (ev' ++ entryEvents b.name es) ↔ s ∈ eventNames ev' := by
      intro es
      induction es with
      | nil => intro ev' _; simp [entryEvents]
      | cons x xs ihx =>
        intro ev' hm
        have e2 : ev' ++ entryEvents b.name (x :: xs) = (ev' ++ [(b.name, some (x.name, x.lines))]) ++ entryEvents b.name xs := by
          simp [entryEvents]
        have hnm : eventNames (ev' ++ [(b.name, some (x.name, x.lines))]) = eventNames ev' ++ [b.name] := by simp [eventNames]
        obtain ⟨g1, g2⟩ := ihx (ev' ++ [(b.name, some (x.name, x.lines))]) (by rw [hnm]; simp)
        rw [e2, g1, hnm, uniqueKeys_snoc, if_pos hm]
        refine ⟨rfl, fun s => ?_⟩
        rw [g2, hnm]
        simp only [List.mem_append, List.mem_singleton]
        constructor
        · rintro (h | rfl)
          · exact h
          · exact hm
        · exact .inl
    have hev : ev ++ ((b.name, none) :: entryEvents b.name b.entries) = (ev ++ [(b.name, none)]) ++ entryEvents b.name b.entries := by simp
    have hnm : eventNames (ev ++ [(b.name, none)]) = eventNames ev ++ [b.name] := by simp [eventNames]
    obtain ⟨g1, g2⟩ := hrep b.entries (ev ++ [(b.name, none)]) (by rw [hnm]; simp)
    apply ih
    · intro s
      rw [hev, g2, hnm, List.mem_append, List.mem_append, h]
    · rw [hev, g1, hnm, uniqueKeys_snoc, uniqueKeys_snoc, hu]
      by_cases hm : b.name ∈ ks
      · rw [if_pos hm, if_pos ((h _).mpr hm)]
      · rw [if_neg hm, if_neg (fun hh => hm ((h _).mp hh))]

theorem eventSections_blocks (bs : List ConfigBlock) : eventSections (blockEvents bs) =
    (uniqueKeys (bs.map (·.name))).map (fun s => (s, (entriesOf bs s).map (fun e => (e.name, e.lines)))) := by
  unfold eventSections
  have := uniqueKeys_block [] bs [] (by simp [eventNames]) rfl
  simp only [List.nil_append] at this
  rw [this]
  apply List.map_congr_left
  intro s _
  rw [eventOptions_blocks]

theorem noRepetition_iff (bs : List ConfigBlock) : eventsAllowed [] (blockEvents bs) ↔ NoRepetition bs := by
  rw [eventsAllowed_iff [] _ (by intro s; exact List.nodup_nil), opensAllowed_blocks]
  unfold NoRepetition
  constructor
  · rintro ⟨h1, h2⟩
    refine ⟨fun s hs => (h1 s hs).1, fun s => ?_⟩
    have := h2 s
    rw [List.nil_append, eventOptions_blocks, List.map_map] at this
    exact this
  · rintro ⟨h1, h2⟩
    refine ⟨fun s hs => ⟨h1 s hs, by simp [eventNames]⟩, fun s => ?_⟩
    rw [List.nil_append, eventOptions_blocks, List.map_map]
    exact h2 s

end Verif
