import Verif.Proofs.UploadMany
import Verif.Properties.JsonText

/-!
# C86: exporting and uploading a selection of traces
-/

namespace Appdash

open Spec

/-- **C86**.  Take any selection of traces returned by a store, with valid UTF-8 keys, in each of which no span other than the root
is parentless or is the root's declared parent.  Upload any JSON text of the list of their exported forms into another store.  The
upload succeeds; every selected trace that the other store did not have is then returned exactly as it was exported, and all other
traces of the other store, including those of the selection it already had, are as before. -/
theorem upload_selection {ops ops' : List StoreOp} {ms ms' : MemStore} (h : MemStore.new.run ops = some ms)
    (h' : MemStore.new.run ops' = some ms') {sel : List (ID × Tree)} (hv : ∀ p ∈ sel, ms.view p.1 = .found p.2)
    (hd : (sel.map Prod.fst).Nodup) (hk : ∀ p ∈ sel, UTF8Keys p.2 ∧ TrueRoot p.2) (nils : SpanID → Bool × Bool) {text : Bytes}
    (ht : IsExports nils (sel.map Prod.snd) text) :
    ∃ ms'', serveUploadBody ms' text = (ms'', .ok) ∧
      (∀ p ∈ sel, ms'.view p.1 = .notFound → ms''.view p.1 = .found p.2) ∧
      ∀ t, (ms'.view t ≠ .notFound ∨ ∀ p ∈ sel, p.1 ≠ t) → ms''.view t = ms'.view t := by
  have W : ∀ p ∈ sel, WellPlaced p.1 p.2 := fun p hp => view_wellPlaced h (hv p hp)
  have e : ∀ p ∈ sel, p.2.span.id.trace = p.1 := fun p hp => (W p hp).trace _ (span_mem_spans p.2)
  have hmap : (sel.map Prod.snd).map (fun tr => tr.span.id.trace) = sel.map Prod.fst := by
    rw [List.map_map]
    exact List.map_congr_left e
  obtain ⟨h1, h2, h3⟩ := upload_many (sel.map Prod.snd) ms' ⟨ops', h'⟩ (by
    intro tr htr
    obtain ⟨p, hp, rfl⟩ := List.mem_map.1 htr
    exact ⟨by rw [e p hp]; exact W p hp, (hk p hp).2⟩) (by rw [hmap]; exact hd)
  have hdec := decode_exports nils (sel.map Prod.snd) (by
    intro tr htr
    obtain ⟨p, hp, rfl⟩ := List.mem_map.1 htr
    exact (hk p hp).1)
  refine ⟨(uploadTraces ms' ((sel.map Prod.snd).map PTree.ofTree)).1, ?_, ?_, ?_⟩
  · simp only [serveUploadBody, parse_isJSON ht, serveTraceUpload, hdec]
    generalize uploadTraces ms' ((sel.map Prod.snd).map PTree.ofTree) = r at h1
    obtain ⟨m, b⟩ := r
    simp only at h1
    subst h1
    rfl
  · intro p hp hn
    have := h2 p.2 (List.mem_map.2 ⟨p, hp, rfl⟩)
    rw [e p hp] at this
    exact this hn
  · intro t ht
    refine h3 t (ht.imp id fun h tr htr => ?_)
    obtain ⟨p, hp, rfl⟩ := List.mem_map.1 htr
    rw [e p hp]
    exact h p hp

/-- **C86** (texts).  The traces as the application writes them, put into a list with any layout, are such a text. -/
theorem exports_text {L : Layout} (hL : L.Blank) (nils : SpanID → Bool × Bool) (trs : List Tree) :
    IsExports nils trs (JVal.print L 0 (.arr (trs.map (traceJSON nils)))) := by
  have := print_text hL 0 (.arr (trs.map (traceJSON nils)))
  have e : JVal.cleanList (trs.map (traceJSON nils)) = trs.map (encodeTrace nils) := by
    clear this
    induction trs with
    | nil => rfl
    | cons tr trs ih => simp only [List.map_cons, JVal.cleanList, clean_trace, ih]
  rw [JVal.clean, e] at this
  exact ⟨[], _, [], Blank.nil, Blank.nil, this, by simp⟩

/-- A store with two traces. -/
def twoTraces : List StoreOp := [.collect ⟨1, 5, 0⟩ [⟨b!"k<", some b!"v"⟩], .collect ⟨2, 7, 0⟩ [], .collect ⟨1, 6, 5⟩ []]

/-- Both can be selected; the other store (`uploadTarget`) has a trace 2 of its own. -/
example : (MemStore.new.run twoTraces).map (fun ms => (ms.view 1, ms.view 2)) =
    some (.found (.node ⟨⟨1, 5, 0⟩, [⟨b!"k<", some b!"v"⟩]⟩ [.node ⟨⟨1, 6, 5⟩, []⟩ []]), .found (.node ⟨⟨2, 7, 0⟩, []⟩ [])) := by decide_cbv
example : UTF8Keys (.node ⟨⟨1, 5, 0⟩, [⟨b!"k<", some b!"v"⟩]⟩ [.node ⟨⟨1, 6, 5⟩, []⟩ []]) ∧
    TrueRoot (.node ⟨⟨1, 5, 0⟩, [⟨b!"k<", some b!"v"⟩]⟩ [.node ⟨⟨1, 6, 5⟩, []⟩ []]) ∧ TrueRoot (.node ⟨⟨2, 7, 0⟩, []⟩ []) := by
  unfold UTF8Keys TrueRoot
  decide

/-- A text with another escape than the application writes, as `JSON.stringify` or a person might. -/
example : serveUploadBody (uploadTraces MemStore.new [.ofTree (.node ⟨⟨2, 9, 0⟩, []⟩ [])]).1
      b!"[{\"ID\":{\"Trace\":\"1\",\"Span\":\"5\",\"Parent\":\"0\"},\"Annotations\":[{\"Key\":\"\\u006b<\",\"Value\":\"dg==\"}],\"Sub\":null}]" =
    ((uploadTraces MemStore.new [.ofTree (.node ⟨⟨2, 9, 0⟩, []⟩ []),
      .ofTree (.node ⟨⟨1, 5, 0⟩, [⟨b!"k<", some b!"v"⟩]⟩ [])]).1, .ok) := by rfl

end Appdash
