import Verif.Proofs.PythonExamples
import Verif.Proofs.OpenTracingLogs

/-!
# Lemmas about programs that use the Python OpenTracing recorder
-/

namespace Appdash
open Spec Py

theorem recordTags_ok (id : SpanID) : ∀ {tags : List (Bytes × Value)} {r : List Packet}, recordTags id tags = (r, false) →
    ∃ kvs : List (Bytes × Bytes), tags = kvs.map (fun kv => (kv.1, Value.str kv.2)) ∧ r = kvs.map fun kv => (id, [⟨kv.1, kv.2⟩])
  | [], r, h => by
    simp only [recordTags, Prod.mk.injEq, and_true] at h
    exact ⟨[], rfl, by rw [← h]; rfl⟩
  | (k, .str v) :: tags, r, h => by
    rw [recordTags] at h
    simp only [Prod.mk.injEq] at h
    obtain ⟨kvs, e1, e2⟩ := recordTags_ok id (tags := tags) (r := (recordTags id tags).1) (by rw [← h.2])
    exact ⟨(k, v) :: kvs, by rw [e1]; rfl, by rw [← h.1, e2]; rfl⟩
  | (k, .other) :: tags, r, h => by simp [recordTags] at h

/-- What is recorded of a span. -/
theorem records_ok {sp : OTSpan} (hs : sp.sampled = true) {r : List Packet} (h : Records sp (r, false)) :
    ∃ (name times : List Ann) (kvs : List (Bytes × Bytes)), Py.Marshals (spanName sp.operation) name ∧
      Py.Marshals (Py.timespan sp.start sp.stop) times ∧ sp.tagList = kvs.map (fun kv => (kv.1, Value.str kv.2)) ∧
      r = (sp.id, name) :: (sp.id, times) :: kvs.map fun kv => (sp.id, [⟨kv.1, kv.2⟩]) := by
  rw [Records, if_neg (by simp [hs])] at h
  obtain ⟨name, times, h1, h2, h3⟩ := h
  simp only [Prod.mk.injEq] at h3
  obtain ⟨h3, h4⟩ := h3
  cases ht : (recordTags sp.id (sp.tags.getD [])).2 with
  | true =>
    have ht' : (recordTags { trace := sp.trace, span := sp.span, parent := sp.parent.getD 0 } (sp.tags.getD [])).2 = true := ht
    rw [ht', if_pos rfl] at h4
    cases h4
  | false =>
    have ht' : (recordTags { trace := sp.trace, span := sp.span, parent := sp.parent.getD 0 } (sp.tags.getD [])).2 = false := ht
    rw [ht', if_neg (by simp)] at h3 h4
    have hb : (recordBaggage (sp.baggage.getD [])).1 = [] := by
      cases hb : sp.baggage.getD [] with
      | nil => rfl
      | cons a l => rfl
    rw [hb, List.append_nil] at h3
    obtain ⟨kvs, e1, e2⟩ := recordTags_ok sp.id (tags := sp.tags.getD []) (r := (recordTags sp.id (sp.tags.getD [])).1) (by rw [← ht])
    exact ⟨name, times, kvs, h1, h2, e1, by rw [h3]; exact congrArg (fun l => (sp.id, name) :: (sp.id, times) :: l) e2⟩

/-- The events of a span with tags. -/
theorem ot_read {reg : Registry} (hreg : registerAll libraryEvents [] = some reg) {sp : OTSpan} (hpl : sp.PlainTags) {a b : GoTime}
    (ha : RFC3339 sp.start a) (hb : RFC3339 sp.stop b) {name times : List Ann} {kvs : List (Bytes × Bytes)}
    (h1 : Py.Marshals (spanName sp.operation) name) (h2 : Py.Marshals (Py.timespan sp.start sp.stop) times)
    (h3 : sp.tagList = kvs.map fun kv => (kv.1, Value.str kv.2)) :
    unmarshalEvents reg (name.map Ann.go ++ times.map Ann.go ++ kvs.map fun kv => ⟨kv.1, some kv.2⟩) = some (otEvents sp.operation a b, none) := by
  have hk : ∀ x ∈ kvs.map (fun kv => (⟨kv.1, some kv.2⟩ : Annotation)), ¬ b!"_schema:" <+: x.key ∧ x.key ≠ b!"Name" ∧
      x.key ≠ b!"Span.Start" ∧ x.key ≠ b!"Span.End" := by
    intro x hx
    obtain ⟨kv, hkv, rfl⟩ := List.mem_map.1 hx
    exact hpl (kv.1, .str kv.2) (by rw [h3]; exact List.mem_map_of_mem (f := fun kv : Bytes × Bytes => (kv.1, Value.str kv.2)) hkv)
  generalize kvs.map (fun kv => (⟨kv.1, some kv.2⟩ : Annotation)) = tags at hk
  have s3 : schemas tags = [] := schemas_nil_of fun x hx s e => (hk x hx).1 ⟨s, e.symm⟩
  have m1 : Py.Marshals (Simple.name sp.operation).py name := h1
  have m2 : Py.Marshals (Simple.timespan sp.start sp.stop a b).py times := h2
  have sch : schemas (name.map Ann.go ++ times.map Ann.go ++ tags) = [b!"name", b!"Timespan"] := by
    rw [schemas_append, schemas_append, Simple.schemas_own m1, Simple.schemas_own m2, s3]; rfl
  obtain ⟨E1, g1, r1⟩ := Simple.read hreg (e := .name sp.operation) trivial m1 [] (times.map Ann.go ++ tags) (by
    intro x hx hn
    have hn' : x.key = b!"Name" := by simpa [Simple.keys, Simple.py, spanName] using hn
    rcases List.mem_append.1 hx with hx | hx
    · rcases Simple.own_keys m2 hx with h | h
      · exact Simple.keys_disjoint (e := .name sp.operation) (f := .timespan sp.start sp.stop a b) (by show b!"name" ≠ b!"Timespan"; decide)
          (by rintro ⟨h, -⟩; exact absurd h (by show b!"name" ≠ b!"msg"; decide))
          (by rintro ⟨h, -⟩; exact absurd h (by show b!"name" ≠ b!"log"; decide)) _ hn h
      · rw [hn'] at h; exact absurd h (by decide)
    · exact (hk x hx).2.1 hn')
  obtain ⟨E2, g2, r2⟩ := Simple.read hreg (e := .timespan sp.start sp.stop a b) ⟨ha, hb⟩ m2 (name.map Ann.go) tags (by
    intro x hx hn
    have hn' : x.key = b!"Span.Start" ∨ x.key = b!"Span.End" := by simpa [Simple.keys, Simple.py, Py.timespan] using hn
    rcases hn' with h | h
    · exact (hk x hx).2.2.1 h
    · exact (hk x hx).2.2.2 h)
  rw [List.nil_append, ← List.append_assoc] at r1
  rw [unmarshalEvents, sch, unmarshalLoop]
  rw [show AMap.get reg b!"name" = some E1 from g1]
  simp only
  rw [r1]
  simp only
  rw [unmarshalLoop, show AMap.get reg b!"Timespan" = some E2 from g2]
  simp only
  rw [r2]
  rfl

/-- What the packets of a list of spans hold for one of them. -/
theorem ot_group {sps : List OTSpan} {rs : List (List Packet)} (h : List.Forall₂ (fun sp r => Records sp (r, false)) sps rs)
    (hs : ∀ sp ∈ sps, sp.sampled = true) (hd : sps.Pairwise fun a b => a.id ≠ b.id) {sp : OTSpan} (hsp : sp ∈ sps) :
    ∃ r ∈ rs, Records sp (r, false) ∧
      ((rs.flatten.map goCall).flatMap fun e => if e.1 = sp.id then e.2 else []) = r.flatMap fun p => p.2.map Ann.go := by
  have own : ∀ {x : OTSpan} {r : List Packet}, x.sampled = true → Records x (r, false) → ∀ p ∈ r, p.1 = x.id := by
    intro x r hx hr p hp
    obtain ⟨name, times, kvs, -, -, -, rfl⟩ := records_ok hx hr
    simp only [List.mem_cons, List.mem_map] at hp
    rcases hp with rfl | rfl | ⟨kv, -, rfl⟩ <;> rfl
  have none : ∀ {r : List Packet} {i : SpanID}, (∀ p ∈ r, p.1 ≠ i) → ((r.map goCall).flatMap fun e => if e.1 = i then e.2 else []) = [] := by
    intro r i hr
    rw [List.flatMap_eq_nil_iff]
    intro e he
    obtain ⟨p, hp, rfl⟩ := List.mem_map.1 he
    exact if_neg (hr p hp)
  have all : ∀ {r : List Packet} {i : SpanID}, (∀ p ∈ r, p.1 = i) →
      ((r.map goCall).flatMap fun e => if e.1 = i then e.2 else []) = r.flatMap fun p => p.2.map Ann.go := by
    intro r i hr
    induction r with
    | nil => rfl
    | cons p r ih =>
      rw [List.map_cons, List.flatMap_cons, List.flatMap_cons, ih fun q hq => hr q (List.mem_cons_of_mem _ hq),
        if_pos (show (goCall p).1 = i from hr p (List.mem_cons_self ..))]
      rfl
  have noneRs : ∀ {sps : List OTSpan} {rs : List (List Packet)}, List.Forall₂ (fun sp r => Records sp (r, false)) sps rs →
      (∀ sp ∈ sps, sp.sampled = true) → ∀ {i : SpanID}, (∀ x ∈ sps, x.id ≠ i) →
      ((rs.flatten.map goCall).flatMap fun e => if e.1 = i then e.2 else []) = [] := by
    intro sps rs h
    induction h with
    | nil => intros; rfl
    | cons h1 _ ih =>
      intro hs i hi
      rw [List.flatten_cons, List.map_append, List.flatMap_append, ih (fun x hx => hs x (List.mem_cons_of_mem _ hx))
        (fun x hx => hi x (List.mem_cons_of_mem _ hx)), none fun p hp => ?_, List.append_nil]
      rw [own (hs _ (List.mem_cons_self ..)) h1 p hp]
      exact hi _ (List.mem_cons_self ..)
  induction h with
  | nil => cases hsp
  | @cons x r sps rs h1 h2 ih =>
    obtain ⟨hd1, hd2⟩ := List.pairwise_cons.1 hd
    have hx := hs x (List.mem_cons_self ..)
    rcases List.mem_cons.1 hsp with rfl | hm
    · refine ⟨r, List.mem_cons_self .., h1, ?_⟩
      rw [List.flatten_cons, List.map_append, List.flatMap_append, all (own hx h1),
        noneRs h2 (fun x hx => hs x (List.mem_cons_of_mem _ hx)) (fun y hy => (hd1 y hy).symm), List.append_nil]
    · obtain ⟨r', k1, k2, k3⟩ := ih (fun x hx => hs x (List.mem_cons_of_mem _ hx)) hd2 hm
      refine ⟨r', List.mem_cons_of_mem _ k1, k2, ?_⟩
      rw [List.flatten_cons, List.map_append, List.flatMap_append, k3, none fun p hp => ?_, List.nil_append]
      rw [own hx h1 p hp]
      exact hd1 sp hm

end Appdash
