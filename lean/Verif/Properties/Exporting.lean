import Verif.Proofs.Exporting
import Verif.Properties.Reading

/-!
# Property C146: a trace that is exported while spans are collected
-/

namespace Appdash

open Spec

/-- **C146**, as a user would expect it.  Showing or exporting a trace does not panic, whatever calls other goroutines make meanwhile. -/
def ExportNeverPanics : Prop :=
  ∀ (ops ops' : List StoreOp) (ms ms' : MemStore) (t : ID) (r : Option Tree), MemStore.new.run ops = some ms → ms.ExportWhile t ops' r ms' →
    r ≠ none

/-- **C146** fails.  The root has two children, one of them only until its parent is collected; the parent is collected after the first
child has been encoded.  The slice of the root's children then has one element, and the export reads the second. -/
theorem export_can_panic : ¬ ExportNeverPanics := by
  intro H
  obtain ⟨ms, h⟩ := collect_never_panics repeatBefore
  obtain ⟨ms', h'⟩ := collect_never_panics (repeatBefore ++ [.collect ⟨7, 2, 4⟩ []])
  have e : (MemStore.new.run repeatBefore).map (fun ms => (ms.tracePtr 7, (ms.heap 0).sub, (ms.heap 1).sub)) =
      some (some 0, [1, 2], []) := by decide_cbv
  have e' : (MemStore.new.run (repeatBefore ++ [.collect ⟨7, 2, 4⟩ []])).map (fun ms => (ms.heap 0).sub) = some [2] := by decide_cbv
  rw [h] at e
  rw [h'] at e'
  rw [run_append, h] at h'
  simp only [Option.map_some, Option.some.injEq, Prod.mk.injEq] at e e'
  obtain ⟨p, h0, h1⟩ := e
  have one := Encodes.node (ms := ms) (ops₁ := []) (ops₂ := []) (a := 1) rfl rfl (by rw [h1]; exact .done)
  have rest : EncodesSub ms [.collect ⟨7, 2, 4⟩ []] 0 1 2 none ms' := .panic (by decide) h' (by rw [e']; rfl)
  have two := EncodesSub.elem (ops₁ := []) (a := 0) (i := 0) (n := 2) (by decide) rfl (by rw [h0]; rfl) one rest
  have all := Encodes.node (ms := ms) (ops₁ := []) (ops₂ := []) (a := 0) rfl rfl (by rw [h0]; exact two)
  exact H _ _ _ _ _ _ h ⟨0, p, all⟩ rfl

/-- **C146** (calls for other traces).  If nothing is collected for the trace meanwhile, the export does not panic, and it is the export
of the trace as it was when it was fetched, even if it is deleted. -/
theorem export_undisturbed_partial {ops ops' : List StoreOp} {ms ms' : MemStore} (h : MemStore.new.run ops = some ms) {t : ID} {r : Option Tree}
    (hr : ms.ExportWhile t ops' r ms') (hops : ∀ id as, StoreOp.collect id as ∈ ops' → id.trace ≠ t) :
    ∃ tr, r = some tr ∧ ms.view t = .found tr := by
  obtain ⟨tr, e, hr⟩ := export_undisturbed h hr hops
  exact ⟨tr, e, reading_undisturbed_partial h hr hops⟩

/-- **C146** (more annotations).  If only annotations of spans that were collected before are added to the trace meanwhile, the export does
not panic, and what it writes lies between the trace as it was before and as it is afterwards. -/
theorem export_annotations_partial {ops ops' : List StoreOp} {ms ms' : MemStore} (h : MemStore.new.run ops = some ms) {t : ID}
    {r : Option Tree} (hr : ms.ExportWhile t ops' r ms') (hk : Keeps t ops')
    (hops : ∀ id as, StoreOp.collect id as ∈ ops' → id.trace = t → Collected (live t ops) id.span) :
    ∃ tr before after, r = some tr ∧ ms.view t = .found before ∧ ms'.view t = .found after ∧ Between [before] [tr] [after] := by
  obtain ⟨tr, e, hr⟩ := export_annotations h hr hk hops
  obtain ⟨b, a, h1, h2, h3⟩ := reading_annotations_partial h hr hk hops
  exact ⟨tr, b, a, e, h1, h2, h3⟩

-- A trace of one span that gets an annotation, while another trace is deleted, before the span is encoded.
example : ∃ ms ms', MemStore.new.run [.collect ⟨7, 1, 0⟩ []] = some ms ∧
    ms.ExportWhile 7 [.collect ⟨7, 1, 0⟩ [⟨b!"k", b!"v"⟩], .delete [8]] (some (.node ⟨⟨7, 1, 0⟩, [⟨b!"k", b!"v"⟩]⟩ [])) ms' := by
  obtain ⟨ms, h⟩ := collect_never_panics [.collect ⟨7, 1, 0⟩ []]
  obtain ⟨ms', h'⟩ := collect_never_panics ([.collect ⟨7, 1, 0⟩ []] ++ [.collect ⟨7, 1, 0⟩ [⟨b!"k", b!"v"⟩], .delete [8]])
  have e : (MemStore.new.run [.collect ⟨7, 1, 0⟩ []]).map (fun ms => ms.tracePtr 7) = some (some 0) := by decide_cbv
  have e' : (MemStore.new.run ([.collect ⟨7, 1, 0⟩ []] ++ [.collect ⟨7, 1, 0⟩ [⟨b!"k", b!"v"⟩], .delete [8]])).map (fun ms => ms.heap 0) =
      some ⟨⟨7, 1, 0⟩, [⟨b!"k", b!"v"⟩], []⟩ := by decide_cbv
  rw [h] at e
  rw [h'] at e'
  rw [run_append, h] at h'
  simp only [Option.map_some, Option.some.injEq] at e e'
  have := Encodes.node (ms := ms) (ops₁ := [.collect ⟨7, 1, 0⟩ [⟨b!"k", b!"v"⟩], .delete [8]]) (ops₂ := []) (a := 0) h' rfl
    (by rw [e']; exact .done)
  rw [e'] at this
  exact ⟨ms, ms', h, 0, e, this⟩
example : Keeps 7 [.collect ⟨7, 1, 0⟩ [⟨b!"k", b!"v"⟩], .delete [8]] ∧ Collected (live 7 [.collect ⟨7, 1, 0⟩ []]) 1 :=
  ⟨by intro ids h; simp at h; subst h; decide, by decide⟩

end Appdash
