/-
Property C138: files in which no DOI annotation is empty or directly follows another one are all repaired.
-/
import Verif.Props.JatsSucceeds
import Verif.Props.JatsDoc
import Verif.Props.JatsPool
import Verif.Spec.JatsRepairable

namespace Verif
open Spec

theorem refsAt_sublist (anc : List Str) (n : JNode) : ∀ r ∈ refsAt anc n, (jAll r).Sublist (jAll n) := by
  refine JNode.rec (motive_1 := fun n => ∀ anc, ∀ r ∈ refsAt anc n, (jAll r).Sublist (jAll n))
    (motive_2 := fun ns => ∀ anc, ∀ r ∈ refsAts anc ns, (jAll r).Sublist (jAlls ns)) ?_ ?_ ?_ n anc
  · intro i g a t cs tl ih anc r hr
    unfold refsAt at hr
    split at hr
    · rw [List.mem_singleton.1 hr]
      exact List.Sublist.refl _
    · rw [jAll_eq (JNode.mk i g a t cs tl)]
      exact (ih _ r hr).cons _
  · intro anc r hr
    cases hr
  · intro n ns ih1 ih2 anc r hr
    unfold refsAts at hr
    have e : jAlls (n :: ns) = jAll n ++ jAlls ns := by rw [jAlls_cons, jAll_eq n]; rfl
    rw [e]
    rcases List.mem_append.1 hr with h | h
    · exact (ih1 _ r h).trans (List.sublist_append_left _ _)
    · exact (ih2 _ r h).trans (List.sublist_append_right _ _)

/-- **C138**, for one file: it can be repaired. -/
theorem C138_file (env : JatsEnv) (hcc : DigitsPlain env.cc) (h10 : ∀ c ∈ c!"10.", env.cc.isSpace c = false)
    (ht : TruncatesAtGap env.toJatsTextEnv) (hlow : ∀ k ∈ knownPubIdTypes, env.lower k = k) (parse : Str → Except Nat JNode)
    (ser : JNode → Str) (now data : Str) (h : FixableFile env parse data) : ∃ out, fixJatsFile env parse ser now data = .ok out := by
  obtain ⟨root, m, hread, hap, hid, hd⟩ := h
  refine (C102_succeeds env parse ser now data).2 ⟨root, m, hread, fun r hr => ?_⟩
  refine C80_succeeds env hcc h10 ht hlow r ?_ (hd r ((C102_references root r hap).1 hr))
  exact ((refsAt_sublist [] root r hr).map _).nodup hid

/-- **C138.** If all sources can be read, no DOI annotation of a reference is without text or directly follows another one, and outputs are apart from
sources and from each other, then whatever the order in which the workers make their steps, once all jobs have ended no error is reported
and each output is the document read from its source, with each reference replaced by its repaired version, everything else the same, and the
five entries added. -/
theorem C138_all_repaired (env : JatsEnv) (hcc : DigitsPlain env.cc) (h10 : ∀ c ∈ c!"10.", env.cc.isSpace c = false)
    (ht : TruncatesAtGap env.toJatsTextEnv) (hlow : ∀ k ∈ knownPubIdTypes, env.lower k = k) (parse : Str → Except Nat JNode)
    (ser : JNode → Str) (write : Str → JNode → Str) (now : Str → Str) (file output : Str → Str) (jobs : List Str) (fs0 : FileStore)
    (hap : OutputsApart ⟨file, output, jatsProcess env parse ser write now⟩ jobs)
    (hfix : ∀ u ∈ jobs, ∃ data, fs0 (file u) = some data ∧ FixableFile env parse data) (c : JobsConfig)
    (hc : PoolReach ⟨file, output, jatsProcess env parse ser write now⟩ jobs fs0 c) (hcomp : c.complete)
    (order : List JobState) (ho : order.Perm c.states) :
    awaitResults order = .ok () ∧
    ∀ u ∈ jobs, ∃ data out root malformed fixed changed added, fs0 (file u) = some data ∧ c.fs (file (output u)) = some (write data out) ∧
      ReadAs parse data root malformed ∧
      emptyRefs fixed = emptyRefs root ∧ (refsOf root).map (fixReference env) = (refsOf fixed).map .ok ∧
      changed = changedOf ser (refsOf root) (refsOf fixed) ∧
      MetaAdded fixed out added ∧
      MetaPairs added [
        (c!"fix-jats-note", c!"This XML file had been modified to fix some of the potential errors."),
        (c!"fix-jats-run-timestamp", now u),
        (c!"fix-jats-malformatted-xml", if malformed then c!"true" else c!"false"),
        (c!"fix-jats-changed-reference-count", Nat.toDigits 10 changed.length),
        (c!"fix-jats-changed-reference-ids", joinStr c!"," (changed.map (fun r => r.attrs.getD c!"id" [])))] := by
  refine ⟨(C103_outcome_partial _ jobs fs0 hap c hc hcomp order ho).2.2.2 ?_, ?_⟩
  · rintro u hu ⟨e, he⟩
    obtain ⟨data, hd, hf⟩ := hfix u hu
    obtain ⟨out, hout⟩ := C138_file env hcc h10 ht hlow parse ser (now u) data hf
    have he : jatsProcess env parse ser write now u (fs0 (file u)) = .error e := he
    rw [hd] at he
    simp only [jatsProcess, hout] at he
    cases he
  · intro u hu
    obtain ⟨data, hd, hf⟩ := hfix u hu
    obtain ⟨out, hout⟩ := C138_file env hcc h10 ht hlow parse ser (now u) data hf
    obtain ⟨root, m, fixed, changed, added, h1, h2, h3, h4, h5, h6⟩ := C102_document env parse ser (now u) data out hout
    exact ⟨data, out, root, m, fixed, changed, added, hd,
      (C103_repaired_partial env parse ser write now file output jobs fs0 hap c hc hcomp u data hu hd).1 out hout, h1, h2, h3, h4, h5, h6⟩

/-! ### Examples -/

/-- A check of the condition on DOI annotations. -/
def apartCheck (d : JNode → Bool) : Option JNode → List JNode → Bool
  | _, [] => true
  | prev, e :: r =>
    (!d e || (e.text.isSome && (match prev with
      | none => true
      | some p => !d p || (match p.tail with | some (_ :: _) => true | _ => false)))) && apartCheck d (some e) r

theorem apartCheck_sound {d : JNode → Bool} (cs : List JNode) : ∀ prev, apartCheck d prev cs = true → ∀ l e r, cs = l ++ e :: r → d e = true →
    (∃ s, e.text = some s) ∧ ∀ p, (prev.toList ++ l).getLast? = some p → d p = true → ∃ c s, p.tail = some (c :: s) := by
  induction cs with
  | nil => intro _ _ l e r h; cases l <;> cases h
  | cons x cs ih =>
    intro prev h l e r hcs he
    unfold apartCheck at h
    rw [Bool.and_eq_true] at h
    cases l with
    | nil =>
      obtain ⟨rfl, rfl⟩ := List.cons.inj hcs
      have h1 := h.1
      rw [he] at h1
      simp only [Bool.not_true, Bool.false_or, Bool.and_eq_true] at h1
      refine ⟨Option.isSome_iff_exists.1 h1.1, fun p hp hdp => ?_⟩
      cases prev with
      | none => cases hp
      | some q =>
        obtain rfl : q = p := Option.some.inj hp
        have h2 : (!d q || (match q.tail with | some (_ :: _) => true | _ => false)) = true := h1.2
        rw [hdp, Bool.not_true, Bool.false_or] at h2
        split at h2
        · next c s hc => exact ⟨c, s, hc⟩
        · cases h2
    | cons y l =>
      obtain ⟨rfl, rfl⟩ := List.cons.inj hcs
      obtain ⟨h1, h2⟩ := ih (some x) h.2 l e r rfl he
      refine ⟨h1, fun p hp hdp => h2 p ?_ hdp⟩
      rw [← hp]
      cases prev with
      | none => rfl
      | some q => simp

theorem doisApart_of_check {env : JatsEnv} {n : JNode}
    (h : (jAll n).all (fun m => apartCheck (fun e => e.tag = c!"pub-id" && (match e.attrs.get? c!"pub-id-type" with
      | some type => decide (type = c!"doi" ∨ env.lower type = c!"doi") | none => false)) none m.children) = true) : DoisApart env n := by
  have key : ∀ e, DoiAnnotation env e → (decide (e.tag = c!"pub-id") && (match e.attrs.get? c!"pub-id-type" with
      | some type => decide (type = c!"doi" ∨ env.lower type = c!"doi") | none => false)) = true := by
    rintro e ⟨h1, type, h2, h3⟩
    rw [h1, h2]
    simp [h3]
  intro m hm l e r hcs hd
  obtain ⟨h1, h2⟩ := apartCheck_sound m.children none (List.all_eq_true.1 h m hm) l e r hcs (key e hd)
  exact ⟨h1, fun p hp hdp => h2 p hp (key p hdp)⟩

theorem under_mem {r n : JNode} {anc : List Str} (h : Under r anc n) : n = r ∨ n ∈ jAlls r.children := by
  induction h with
  | root => exact .inl rfl
  | child anc p c _ hc ih =>
    refine .inr ?_
    rcases ih with rfl | ih
    · exact mem_jAlls_self hc
    · exact jAlls_trans ih hc

theorem under_mem_children {r n : JNode} {anc : List Str} (h : Under r anc n) (hne : anc ≠ []) : n ∈ jAlls r.children := by
  cases h with
  | root => exact absurd rfl hne
  | child anc p _ hp hc =>
    rcases under_mem hp with rfl | ih
    · exact mem_jAlls_self hc
    · exact jAlls_trans ih hc

theorem refsApart_of_check {root : JNode}
    (h : ∀ r ∈ jAll root, r.tag = c!"ref" → ∀ e ∈ jAlls r.children, e.tag ≠ c!"ref") : RefsApart root := by
  intro anc r hr hp anc' r' hr' hne hp'
  have hm : r ∈ jAll root := by
    rw [jAll_eq]
    rcases under_mem hr with rfl | h
    · exact List.mem_cons_self
    · exact List.mem_cons_of_mem _ h
  exact h r hm hp.1 r' (under_mem_children hr' hne) hp'.1

/-- The document of the example for C102 with different identities. -/
def repairableRoot : JNode := jatsExampleDoc [] [
  .mk 0 c!"ref" [(c!"id", c!"r1")] none [jEl 1 c!"mixed-citation" (some c!"A.") [] none] (some c!"\n"),
  .mk 2 c!"ref" [(c!"id", c!"r2")] none
    [jEl 3 c!"mixed-citation" (some c!"B. ") [jPubId 4 c!"doi" (some c!"doi: 10.1234/a") [] (some c!", "), jPubId 5 c!"DOI" (some c!"10.1234/b") [] none] none]
    none]

theorem repairable_example : RefsApart repairableRoot ∧ ((jAll repairableRoot).map (·.id)).Nodup ∧
    ∀ r, IsRef repairableRoot r → DoisApart jatsFixExampleEnv r := by
  have hap : RefsApart repairableRoot := by
    refine refsApart_of_check (fun r hr ht => ?_)
    have : ∀ r ∈ jAll repairableRoot, ¬ r.tag = c!"ref" ∨ ∀ e ∈ jAlls r.children, e.tag ≠ c!"ref" := by decide +kernel
    rcases this r hr with h | h
    · exact absurd ht h
    · exact h
  refine ⟨hap, by decide +kernel, fun r hr => doisApart_of_check ?_⟩
  have : ∀ r ∈ refsOf repairableRoot, (jAll r).all (fun m => apartCheck (fun e => e.tag = c!"pub-id" && (match e.attrs.get? c!"pub-id-type" with
      | some type => decide (type = c!"doi" ∨ jatsFixExampleEnv.lower type = c!"doi") | none => false)) none m.children) = true := by
    rw [← List.all_eq_true]
    decide +kernel
  exact this r ((C102_references _ _ hap).2 hr)

/-- Not vacuous: the file is read as the document above, with two DOI annotations and text between them. -/
example : FixableFile jatsFixExampleEnv (fun _ => .ok repairableRoot) c!"<article/>" ∧ (refsOf repairableRoot).length = 2 ∧
    (∀ k ∈ knownPubIdTypes, jatsFixExampleEnv.lower k = k) :=
  ⟨⟨repairableRoot, false, .plain _ (by rw [parses_iff]), repairable_example.1, repairable_example.2.1, repairable_example.2.2⟩,
    by decide +kernel, by decide +kernel⟩

end Verif
