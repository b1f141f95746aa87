import Verif.Proofs.MixedClients
import Verif.Properties.PythonEvent

/-!
# Lemmas on events of the Python client among others (C129)
-/

namespace Appdash
open Spec Py

namespace Py

/-- The keys of a simple event. -/
def Simple.keys (e : Simple) : List Bytes := e.py.fields.map Prod.fst

theorem Simple.py_schema (e : Simple) : e.py.schema = e.go.1 := by cases e <;> rfl

theorem Simple.keys_plain (e : Simple) : ∀ k ∈ e.keys, schemaPrefix.isPrefixOf k = false := by
  cases e <;> simp only [Simple.keys, Simple.py, spanName, Py.msgEvent, Py.logEvent, Py.timespan, Py.sqlEvent, List.map_cons, List.map_nil] <;> decide

/-- Events of different schemas, not a message and a log, have no key in common. -/
theorem Simple.keys_disjoint {e f : Simple} (h : e.go.1 ≠ f.go.1) (h1 : ¬ (e.go.1 = b!"msg" ∧ f.go.1 = b!"log"))
    (h2 : ¬ (e.go.1 = b!"log" ∧ f.go.1 = b!"msg")) : ∀ k ∈ e.keys, k ∉ f.keys := by
  cases e <;> cases f <;>
    first
    | exact absurd rfl h
    | exact absurd ⟨rfl, rfl⟩ h1
    | exact absurd ⟨rfl, rfl⟩ h2
    | (simp only [Simple.keys, Simple.py, spanName, Py.msgEvent, Py.logEvent, Py.timespan, Py.sqlEvent, List.map_cons, List.map_nil]; decide)

theorem Simple.schemas_own {e : Simple} {own : List Ann} (hm : Py.Marshals e.py own) : schemas (own.map Ann.go) = [e.go.1] := by
  obtain ⟨items, hp, rfl⟩ := hm
  rw [List.map_append, schemas_append, schemas_none, List.nil_append, ← e.py_schema]
  · exact schemas_marker _
  · intro a ha
    rw [List.map_map] at ha
    obtain ⟨kv, hkv, rfl⟩ := List.mem_map.1 ha
    exact e.keys_plain _ (List.mem_map.2 ⟨kv, hp.subset hkv, rfl⟩)

theorem Simple.own_keys {e : Simple} {own : List Ann} (hm : Py.Marshals e.py own) {a : Annotation} (ha : a ∈ own.map Ann.go) :
    a.key ∈ e.keys ∨ schemaPrefix.isPrefixOf a.key = true := by
  obtain ⟨items, hp, rfl⟩ := hm
  obtain ⟨x, hx, rfl⟩ := List.mem_map.1 ha
  rcases List.mem_append.1 hx with hx | hx
  · obtain ⟨kv, hkv, rfl⟩ := List.mem_map.1 hx
    exact .inl (List.mem_map.2 ⟨kv, hp.subset hkv, rfl⟩)
  · rw [List.mem_singleton.1 hx]
    exact .inr (isPrefixOf_append.2 ⟨_, rfl⟩)

/-- One event among others. -/
theorem Simple.read {reg : Registry} (hreg : registerAll libraryEvents [] = some reg) {e : Simple} (hok : e.Ok) {own : List Ann}
    (hm : Py.Marshals e.py own) (before after : List Annotation) (hafter : ∀ a ∈ after, a.key ∉ e.keys) :
    ∃ E, AMap.get reg e.go.1 = some E ∧ unmarshalEvent E (before ++ own.map Ann.go ++ after) E.type.zero = some (e.go.2, none) := by
  obtain ⟨reg', hreg', hget⟩ := library_registers
  rw [hreg] at hreg'
  cases Option.some.inj hreg'
  cases e with
  | name n => exact ⟨spanNameEvent, hget spanNameEvent (by simp [libraryEvents]), python_name_read n own hm before after (by simpa [Simple.keys, Simple.py, spanName] using hafter) _⟩
  | msg m => exact ⟨Appdash.msgEvent, hget Appdash.msgEvent (by simp [libraryEvents]), python_msg_read m own hm before after (by simpa [Simple.keys, Simple.py, Py.msgEvent] using hafter) _⟩
  | log m text t => exact ⟨Appdash.logEvent, hget Appdash.logEvent (by simp [libraryEvents]), python_log_read m text t hok own hm before after (by simpa [Simple.keys, Simple.py, Py.logEvent] using hafter) _ _⟩
  | timespan a b t u => exact ⟨Appdash.timespan, hget Appdash.timespan (by simp [libraryEvents]), python_timespan_read a b t u hok.1 hok.2 own hm before after (by simpa [Simple.keys, Simple.py, Py.timespan] using hafter) _ _⟩
  | sql q tag a b t u => exact ⟨Appdash.sqlEvent, hget Appdash.sqlEvent (by simp [libraryEvents]), python_sql_read q tag a b t u hok.1 hok.2 own hm before after (by simpa [Simple.keys, Simple.py, Py.sqlEvent] using hafter) _ _ _ _⟩

end Py

end Appdash
