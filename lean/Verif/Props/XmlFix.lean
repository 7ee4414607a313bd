/-
C44, C73: repair of malformed XML.
-/
import Verif.Lemmas.XmlFix
import Verif.Lemmas.Ok

namespace Verif

open Spec

/-- C44: for every sequence of events for which the repair does not fail, the output is well
formed content (every start tag has its end tag, elements are properly nested, special
characters are escaped), and it has exactly the start tags with their attributes and the
characters of the input, in the same order. -/
theorem C44_balanced (es : List HtmlEvent) (out : Str) (h : fixEvents es = .ok out) :
    ∃ ns, XmlContent out ns ∧ contentMarks ns = eventMarks es := by
  unfold fixEvents at h
  cases hf : fixFeed { buffer := [], stack := [] } es with
  | error x => simp [hf] at h
  | ok st =>
    simp only [hf] at h
    cases h
    obtain ⟨z, hz, hm⟩ := fixRep_feed fixRep_init hf
    obtain ⟨ns, hn, hm'⟩ := fixRep_close hz
    exact ⟨ns, hn, by rw [hm', hm]; rfl⟩

/-- C44: the repair fails exactly if a start tag has an attribute without value. -/
theorem C44_fails_iff (es : List HtmlEvent) :
    (∃ out, fixEvents es = .ok out) ↔ ∀ e ∈ es, ∀ p ∈ eventAttrs e, p.2 ≠ none := by
  rw [← fixFeed_total { buffer := [], stack := [] } es]
  unfold fixEvents
  cases fixFeed { buffer := [], stack := [] } es with
  | error x => simp
  | ok st => simp

/-- C44: the events of well formed content are written as that content. -/
theorem C44_well_formed_kept (ns : List XmlNode) :
    ∃ out, fixEvents (contentEvents ns) = .ok out ∧ XmlContent out ns := by
  obtain ⟨st, h, hz⟩ := fixFeed_content ns fixRep_init
  have hs : st.stack = [] := by rw [hz.2, addNodes_frames]; rfl
  refine ⟨st.buffer, ?_, ?_⟩
  · unfold fixEvents; rw [h]; simp only []; rw [hs]; rfl
  · simpa [FixInv, addNodes] using hz.1

/-- C44: a text that is valid XML is returned unchanged. -/
theorem C44_valid_unchanged (valid : Str → Bool) (tokenise : Str → List HtmlEvent) (s : Str)
    (h : valid s = true) : getFixedXmlStr valid tokenise s = .ok s := by
  unfold getFixedXmlStr; rw [if_pos h]

/-- C44: otherwise the result is well formed content with the start tags and the characters
that were read. -/
theorem C44_invalid_repaired (valid : Str → Bool) (tokenise : Str → List HtmlEvent) (s out : Str)
    (h : valid s = false) (ho : getFixedXmlStr valid tokenise s = .ok out) :
    ∃ ns, XmlContent out ns ∧ contentMarks ns = eventMarks (tokenise s) := by
  unfold getFixedXmlStr at ho
  rw [h] at ho
  exact C44_balanced _ _ ho

/-- C73: an end tag without any open element is ignored. -/
theorem C73_end_ignored (ns : List XmlNode) (t : Str) (post : List HtmlEvent) :
    fixEvents (contentEvents ns ++ .stop t :: post) = fixEvents (contentEvents ns ++ post) := by
  obtain ⟨st, h, hz⟩ := fixFeed_content ns fixRep_init
  have hs : st.stack = [] := by rw [hz.2, addNodes_frames]; rfl
  unfold fixEvents
  rw [fixFeed_append_ok h, fixFeed_append_ok h]
  simp only [fixFeed, fixEvent, fixEnd, hs]

/-- C73: an end tag that belongs to no element closes the innermost open element `u`. -/
theorem C73_unknown_end_closes_innermost (pre : List HtmlEvent) (u : OpenedElem) (t : Str)
    (ht : t ∉ startedTags pre) (hu : t ≠ u.tag) (post : List HtmlEvent) :
    fixEvents (pre ++ (openedEvents u ++ .stop t :: post)) =
      fixEvents (pre ++ (openedEvents u ++ .stop u.tag :: post)) := by
  unfold fixEvents
  rw [fixFeed_append, fixFeed_append]
  cases hp : fixFeed { buffer := [], stack := [] } pre with
  | error x => rfl
  | ok st =>
    simp only []
    obtain ⟨z, hz, _⟩ := fixRep_feed fixRep_init hp
    have hsub : t ∉ st.stack := by
      intro h
      rcases fixFeed_stack_started pre _ _ hp t h with h | h
      · exact absurd h List.not_mem_nil
      · exact ht h
    rw [fixFeed_append, fixFeed_append]
    cases hf : fixFeed st (openedEvents u) with
    | error x => rfl
    | ok st1 =>
      have hs1 := fixFeed_opened_stack [u] st st1 z hz (by simpa using hf)
      have hst : st1.stack = u.tag :: st.stack := by rw [hs1]; rfl
      have hm : t ∉ u.tag :: st.stack := by
        intro h
        rcases List.mem_cons.mp h with h | h
        · exact hu h
        · exact hsub h
      have he : fixEnd st1 t = fixEnd st1 u.tag := by
        unfold fixEnd
        rw [hst]
        simp only []
        rw [if_neg hu, if_pos hm, if_pos trivial]
      simp only [fixFeed, fixEvent, he]

/-- C73 (what the code does): an end tag of an open element that is not the innermost one closes
the elements `us` inside of it, but leaves the element itself open. -/
theorem C73_outer_end_closes_inner (pre : List HtmlEvent) (o : OpenedElem) (us : List OpenedElem)
    (hne : us ≠ []) (ht : o.tag ∉ us.map (·.tag)) (post : List HtmlEvent) :
    fixEvents (pre ++ ((o :: us).flatMap openedEvents ++ .stop o.tag :: post)) =
      fixEvents (pre ++ ((o :: us).flatMap openedEvents ++
        ((us.map (·.tag)).reverse.map .stop ++ post))) := by
  unfold fixEvents
  rw [fixFeed_append, fixFeed_append]
  cases hp : fixFeed { buffer := [], stack := [] } pre with
  | error x => rfl
  | ok st =>
    simp only []
    obtain ⟨z, hz, _⟩ := fixRep_feed fixRep_init hp
    rw [fixFeed_append, fixFeed_append]
    cases hf : fixFeed st ((o :: us).flatMap openedEvents) with
    | error x => rfl
    | ok st2 =>
      have hs2 := fixFeed_opened_stack _ st st2 z hz hf
      simp only [List.map_cons, List.reverse_cons, List.append_assoc, List.singleton_append] at hs2
      simp only []
      have hnr : o.tag ∉ (us.map (·.tag)).reverse := by simpa using ht
      have hc := fixCloseUntil_eq o.tag _ _ st2 hnr hs2
      rw [fixFeed_append_ok hc]
      simp only [fixFeed, fixEvent]
      have he : fixEnd st2 o.tag = fixCloseUntil o.tag st2.stack st2 := by
        generalize hr : (us.map (·.tag)).reverse = rs at hs2 hnr
        cases rs with
        | nil => simp at hr; exact absurd hr hne
        | cons v vs =>
          have hnv : o.tag ≠ v := fun he => hnr (he ▸ List.mem_cons_self)
          have hmem : ¬ o.tag ∉ v :: (vs ++ o.tag :: st.stack) := by simp
          unfold fixEnd
          rw [hs2]
          simp only [List.cons_append]
          rw [if_neg hnv, if_neg hmem]
      rw [he]

/-- Malformed input: two wrongly nested elements and an attribute to be quoted. -/
def xmlFixExample : List HtmlEvent :=
  [.start c!"p" [(c!"a", some c!"x\"<y")], .data c!"1 & ", .start c!"b" [], .start c!"i" [],
    .data c!"2", .stop c!"b", .data c!"3", .stop c!"q", .startEnd c!"br" [], .data c!"4"]

/-- Non-vacuity of `C44_balanced` and `C44_fails_iff`. -/
example : fixEvents xmlFixExample =
    .ok c!"<p a='x\"&lt;y'>1 &amp; <b><i>2</i>3</b><br></br>4</p>" := by decide +kernel

/-- Non-vacuity of `C44_well_formed_kept`. -/
example : fixEvents (contentEvents [.elem c!"a" [(c!"k", c!"v")] [.text c!"x", .elem c!"b" [] []]]) =
    .ok c!"<a k=\"v\">x<b></b></a>" := by decide +kernel

/-- Non-vacuity of `C73_unknown_end_closes_innermost` and `C73_outer_end_closes_inner`. -/
example : c!"x" ∉ startedTags [.start c!"a" []] ∧ c!"x" ≠ (OpenedElem.mk c!"b" [] [.text c!"1"]).tag ∧
    (OpenedElem.mk c!"a" [] []).tag ∉ [OpenedElem.mk c!"b" [] [.text c!"1"], OpenedElem.mk c!"c" [] []].map (·.tag) := by
  decide

/-- C73 (disagreement): the end tag of an open element does not close it if another element is
open inside; the text following the end tag becomes part of the element. -/
theorem C73_text_after_end_tag_inside :
    fixEvents [.start c!"r" [], .start c!"a" [], .start c!"b" [], .stop c!"a", .data c!"x", .stop c!"r"] =
      .ok c!"<r><a><b></b>x</a></r>" := by decide +kernel

/-- C44 (disagreement): the output need not be a document with a single root element. -/
theorem C44_no_single_root :
    fixEvents [.start c!"a" [], .stop c!"b", .data c!"x", .stop c!"a"] = .ok c!"<a></a>x" := by decide +kernel

/-- C44 (disagreement): an attribute without value makes the repair fail. -/
theorem C44_attribute_without_value_fails :
    fixEvents [.start c!"a" [(c!"checked", none)], .stop c!"a"] = .error .attributeError := by decide +kernel

end Verif
