/-
Lemmas for the options given on the command line.
-/
import Verif.Model.CommandLine
import Verif.Props.FieldLists
import Verif.Props.TargetAnnotations
import Verif.Spec.CommandLine

namespace Verif
open Spec

theorem dropWhile_false {α : Type} {p : α → Bool} {l : List α} (h : ∀ x ∈ l, p x = false) : l.dropWhile p = l := by
  cases l with
  | nil => rfl
  | cons x l => rw [List.dropWhile_cons, h x (List.mem_cons_self ..)]; rfl

theorem strip_noSpace {cc : CharClass} {s : Str} (h : ∀ c ∈ s, cc.isSpace c = false) : strip cc s = s := by
  unfold strip lstrip
  rw [dropWhile_false h]
  unfold rstrip
  rw [dropWhile_false (fun c hc => h c (List.mem_reverse.mp hc)), List.reverse_reverse]

theorem mem_joinStr_of_mem {sep p : Str} {ps : List Str} {c : Char} (hp : p ∈ ps) (hc : c ∈ p) : c ∈ joinStr sep ps := by
  induction ps with
  | nil => cases hp
  | cons q qs ih =>
    cases qs with
    | nil =>
      rw [List.mem_singleton] at hp
      subst hp
      exact hc
    | cons r rs =>
      rw [joinStr]
      rcases List.mem_cons.mp hp with rfl | hp
      · exact List.mem_append_left _ (List.mem_append_left _ hc)
      · exact List.mem_append_right _ (ih hp)

/-! ### The filtered mapping -/

theorem get?_map_snd {β γ : Type} (m : Dict β) (f : β → γ) (s : Str) :
    Dict.get? (m.map (fun p => (p.1, f p.2))) s = (m.get? s).map f := by
  induction m with
  | nil => rfl
  | cons p m ih =>
    obtain ⟨k, v⟩ := p
    simp only [List.map_cons, Dict.get?]
    split
    · rfl
    · exact ih

/-- What is in a section of the mapping after the filters was there before, or is an override. -/
theorem mappingAndFields_get? {m : Mapping} {fields subFields : List Str} {ov : Dict Str} {s : Str} {d : Dict Str}
    (h : (mappingAndFields m fields subFields ov).1.get? s = some d) :
    ∃ d0, m.get? s = some d0 ∧ ∀ e ∈ d, ((∃ v, (e.1, v) ∈ d0) ∨ ∃ v, (e.1, v) ∈ ov) ∧
      (fields = [] ∨ mappingKeyFieldName e.1 ∈ fields) ∧ (subFields = [] ∨ keySelected subFields e.1 = true) := by
  have hsub : ∀ (m' : Mapping) (d : Dict Str), (filterSubFields subFields m').get? s = some d →
      ∃ d1, m'.get? s = some d1 ∧ ∀ e ∈ d, e ∈ d1 ∧ (subFields = [] ∨ keySelected subFields e.1 = true) := by
    intro m' d hd
    unfold filterSubFields at hd
    split at hd
    · next he => exact ⟨d, hd, fun e he' => ⟨he', .inl (List.isEmpty_iff.mp he)⟩⟩
    · rw [get?_map_snd m' (fun d => d.filter (fun e => keySelected subFields e.1))] at hd
      obtain ⟨d1, h1, h2⟩ := Option.map_eq_some_iff.mp hd
      subst h2
      exact ⟨d1, h1, fun e he => ⟨(List.mem_filter.mp he).1, .inr (List.mem_filter.mp he).2⟩⟩
  have hov : ∀ d : Dict Str, (overrideMapping ov m).get? s = some d →
      ∃ d0, m.get? s = some d0 ∧ ∀ e ∈ d, (∃ v, (e.1, v) ∈ d0) ∨ ∃ v, (e.1, v) ∈ ov := by
    intro d hd
    unfold overrideMapping at hd
    split at hd
    · exact ⟨d, hd, fun e he => .inl ⟨e.2, he⟩⟩
    · rw [get?_map_snd m (fun d => ov.foldl (fun d e => d.set e.1 e.2) d)] at hd
      obtain ⟨d0, h1, h2⟩ := Option.map_eq_some_iff.mp hd
      subst h2
      exact ⟨d0, h1, fun e he => (Props.C43_aux_fold ov d0 e.1).1 ⟨e.2, he⟩⟩
  unfold mappingAndFields filterMapping at h
  split at h
  · obtain ⟨d1, h1, h2⟩ := hsub _ _ h
    rw [get?_map_snd (overrideMapping ov m) (fun d => d.filter (fun e => fields.contains (mappingKeyFieldName e.1)))] at h1
    obtain ⟨d2, h3, h4⟩ := Option.map_eq_some_iff.mp h1
    subst h4
    obtain ⟨d0, h5, h6⟩ := hov d2 h3
    refine ⟨d0, h5, fun e he => ?_⟩
    have he1 := List.mem_filter.mp (h2 e he).1
    exact ⟨h6 e he1.1, .inr (List.contains_iff_mem.mp he1.2), (h2 e he).2⟩
  · next hf =>
    obtain ⟨d1, h1, h2⟩ := hsub _ _ h
    obtain ⟨d0, h5, h6⟩ := hov d1 h1
    refine ⟨d0, h5, fun e he => ⟨h6 e (h2 e he).1, .inl ?_, (h2 e he).2⟩⟩
    simpa using hf

/-- The names of the sub fields of a field. -/
theorem mem_getSubMapping {mapping : Dict Str} {tag : Str} {p : Str × Str} (h : p ∈ getSubMapping mapping tag) :
    '.' ∉ p.1 ∧ ∃ v, (tag ++ c!".sub." ++ p.1, v) ∈ mapping := by
  unfold getSubMapping at h
  simp only at h
  obtain ⟨h1, h2⟩ := List.mem_filter.mp h
  refine ⟨by simpa using h2, ?_⟩
  unfold Dict.ofPairs at h1
  rcases (Props.C43_aux_fold _ [] p.1).1 ⟨p.2, h1⟩ with ⟨w, h⟩ | ⟨w, h⟩
  · cases h
  · obtain ⟨q, hq, he⟩ := List.mem_map.mp h
    obtain ⟨hq1, hq2⟩ := List.mem_filter.mp hq
    have he1 : List.drop (tag ++ c!".sub" ++ c!".").length q.1 = p.1 := congrArg Prod.fst he
    have := startsWith_drop hq2
    refine ⟨q.2, ?_⟩
    have e : tag ++ c!".sub." ++ List.drop (tag ++ c!".sub" ++ c!".").length q.1 = q.1 := by
      conv => rhs; rw [this]
      simp
    rw [← he1, e]
    exact hq1

theorem Spec.FoundIn.names {env : TargetEnv} {mapping : Dict Str} {root : XNode} {ks : List Str} {found : List Found}
    (h : FoundIn env mapping root ks found) : ∀ f ∈ found, f.item.target.name ∈ ks ∧
      ∀ s ∈ f.item.target.subs, '.' ∉ s.1 ∧ ∃ v, (f.item.target.name ++ c!".sub." ++ s.1, v) ∈ mapping := by
  induction h with
  | nil => intro f hf; cases hf
  | @cons k ks cfg groups rest hc hl hg _ ih =>
    intro f hf
    rcases List.mem_append.mp hf with hf | hf
    · obtain ⟨g, hgm, hfg⟩ := List.mem_flatten.mp hf
      obtain ⟨i, hi, he⟩ := List.getElem_of_mem hgm
      subst he
      obtain ⟨texts, standalone, _, hgroup⟩ := hg i (by rw [← hl]; exact hi) hi
      have hname := (hgroup.same f hfg).1
      have hsubs := (hgroup.options f hfg).2.2.2
      refine ⟨by rw [hname]; exact List.mem_cons_self .., fun s hs => ?_⟩
      rw [hsubs] at hs
      have h1 := (C77_sub_annotation_names env _ cfg.subXpaths mapping k s hs).1
      obtain ⟨p, hp, hps⟩ := List.mem_map.mp h1
      have hsx : cfg.subXpaths = getSubMapping mapping k := by
        unfold fieldCfg at hc
        repeat' split at hc
        all_goals first | cases hc; rfl | cases hc
      rw [hsx] at hp
      rw [hname, ← hps]
      exact mem_getSubMapping hp
    · exact ⟨List.mem_cons_of_mem _ (ih f hf).1, (ih f hf).2⟩

end Verif
