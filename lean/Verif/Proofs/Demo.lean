import Verif.Properties.BaseURL
import Verif.Properties.HttpAnnotations
import Verif.Properties.Services
import Verif.Proofs.Router
import Verif.Spec.Demo

/-!
# The demo: auxiliary lemmas
-/

namespace Appdash

open Spec

theorem annotationsName_skip : ∀ {as : List Annotation} (bs : List Annotation), (∀ a ∈ as, a.key ≠ b!"Name") →
    annotationsName (as ++ bs) = annotationsName bs
  | [], _, _ => rfl
  | a :: as, bs, h => by
    rw [List.cons_append, annotationsName, if_neg (h a (List.mem_cons_self ..)), annotationsName_skip bs fun x hx => h x (List.mem_cons_of_mem _ hx)]

theorem annotationsName_perm {as rest : List Annotation} {n : Bytes} (h : as.Perm (⟨b!"Name", some n⟩ :: rest)) (hr : ∀ a ∈ rest, a.key ≠ b!"Name") :
    annotationsName as = n := by
  obtain ⟨l, r, rfl⟩ := List.append_of_mem (h.mem_iff.2 (List.mem_cons_self ..))
  have hp : (l ++ r).Perm rest := by
    refine List.Perm.cons_inv (a := ⟨b!"Name", some n⟩) (List.Perm.trans ?_ h)
    exact List.perm_middle.symm
  rw [annotationsName_skip _ fun a ha => hr a (hp.subset (List.mem_append_left _ ha))]
  rfl

theorem rows_not_name {side : Bytes} (hs : side = b!"Client" ∨ side = b!"Server") (s : Bytes) : side ++ s ≠ b!"Name" := by
  intro h
  rcases hs with rfl | rfl
  · cases h
  · cases h

theorem requestRows_not_name {side : Bytes} (hs : side = b!"Client" ∨ side = b!"Server") (r : Request) (m : AMap Bytes Bytes) :
    ∀ e ∈ requestRows side r m, e.1 ≠ b!"Name" := by
  intro e he
  simp only [requestRows, List.mem_append, List.mem_cons, List.mem_map, List.not_mem_nil, or_false] at he
  rcases he with ((rfl | rfl | rfl) | ⟨x, _, rfl⟩) | (rfl | rfl | rfl) <;> simp only [List.append_assoc] <;> exact rows_not_name hs _

theorem responseRows_not_name {side : Bytes} (hs : side = b!"Client" ∨ side = b!"Server") (m : AMap Bytes Bytes) (a b : Int) :
    ∀ e ∈ responseRows side m a b, e.1 ≠ b!"Name" := by
  intro e he
  simp only [responseRows, List.mem_append, List.mem_cons, List.mem_map, List.not_mem_nil, or_false] at he
  rcases he with ⟨x, _, rfl⟩ | (rfl | rfl) <;> simp only [List.append_assoc] <;> exact rows_not_name hs _

/-- The name of the span of a handled request. -/
theorem served_named {s : ServedReq} (h : s.Ok) : ∃ rec as, s.out.recorder = some rec ∧ rec.calls = [(s.id, as)] ∧
    annotationsName as = b!"Serve " ++
      (match (s.env.routeName.map fun f => f s.run.request s.run.requestHeader).getD [] with
        | [] => s.run.request.urlHost ++ s.run.request.urlPath
        | route => route) := by
  obtain ⟨rec, as, q, qh, rh, sh, route, e1, e2, -, -, -, rfl, hp⟩ := server_annotations s.env s.n s.request s.header s.out h.serves s.id h.span
    s.run h.handler h.accepted (fun h0 => (h.codes 0 h0).1 rfl)
  refine ⟨rec, as, e1, e2, ?_⟩
  have : (if (s.env.routeName.map fun f => f s.run.request s.run.requestHeader).getD [] = [] then s.run.request.urlHost ++ s.run.request.urlPath
      else (s.env.routeName.map fun f => f s.run.request s.run.requestHeader).getD []) =
      (match (s.env.routeName.map fun f => f s.run.request s.run.requestHeader).getD [] with
        | [] => s.run.request.urlHost ++ s.run.request.urlPath
        | route => route) := by
    cases (s.env.routeName.map fun f => f s.run.request s.run.requestHeader).getD [] <;> simp
  rw [this] at hp
  rw [List.append_assoc, List.cons_append] at hp
  refine annotationsName_perm hp ?_
  intro a ha
  simp only [List.mem_append, List.mem_cons, List.mem_map, List.not_mem_nil, or_false, false_or] at ha
  rcases ha with rfl | ⟨e, ((he | he) | he), rfl⟩ | rfl
  · show b!"_schema:name" ≠ b!"Name"; decide
  · exact requestRows_not_name (.inr rfl) _ _ e he
  · exact responseRows_not_name (.inr rfl) _ _ _ e he
  · rcases he with rfl | rfl | rfl | rfl
    · exact rows_not_name (.inr rfl) b!".Route"
    · exact rows_not_name (.inr rfl) b!".User"
    · exact rows_not_name (.inr rfl) b!".Recv"
    · exact rows_not_name (.inr rfl) b!".Send"
  · show b!"_schema:HTTPServer" ≠ b!"Name"; decide

/-- The name of the span of a call. -/
theorem call_named {c : ClientCall} {parent : SpanID} (h : c.Ok parent) (hn : c.env.setName = true) :
    ∃ as, c.out.recorder.calls = [(c.out.recorder.span, as)] ∧ annotationsName as = b!"Request " ++ c.original.urlHost := by
  obtain ⟨as, rh, rr, e1, -, hrr, hp⟩ := client_annotations c.env c.n c.heap c.original c.out h.trips h.accepted
  refine ⟨as, e1, ?_⟩
  rw [if_pos hn] at hp
  rw [List.append_assoc, List.cons_append] at hp
  refine annotationsName_perm hp ?_
  have hrr' : ∀ e ∈ rr, e.1 ≠ b!"Name" := by
    revert hrr
    cases c.out.result with
    | error e => rintro rfl; exact responseRows_not_name (.inl rfl) _ _ _
    | ok r => rintro ⟨hs, -, rfl⟩; exact responseRows_not_name (.inl rfl) _ _ _
  intro a ha
  simp only [List.mem_append, List.mem_cons, List.mem_map, List.not_mem_nil, or_false, false_or] at ha
  rcases ha with rfl | ⟨e, ((he | he) | he), rfl⟩ | rfl
  · show b!"_schema:name" ≠ b!"Name"; decide
  · exact requestRows_not_name (.inl rfl) _ _ e he
  · exact hrr' e he
  · rcases he with rfl | rfl
    · exact rows_not_name (.inl rfl) b!".Send"
    · exact rows_not_name (.inl rfl) b!".Recv"
  · show b!"_schema:HTTPClient" ≠ b!"Name"; decide

theorem forestEquiv_matching {ts us : List Tree} (h : ForestEquiv ts us) : ∃ cs, cs.Perm ts ∧ List.Forall₂ TreeEquiv cs us := by
  match h with
  | .nil => exact ⟨[], .refl _, .nil⟩
  | .cons (t := t) (u := u) (ts := ts) (us := us) (us' := us') h1 h2 =>
    obtain ⟨cs, hp, hf⟩ := forestEquiv_matching h2
    obtain ⟨c1, c2, h3, h4, rfl⟩ : ∃ c1 c2, List.Forall₂ TreeEquiv c1 us ∧ List.Forall₂ TreeEquiv c2 us' ∧ cs = c1 ++ c2 := by
      refine ⟨cs.take us.length, cs.drop us.length, List.forall₂_take_append _ _ _ hf, List.forall₂_drop_append _ _ _ hf, (List.take_append_drop ..).symm⟩
    exact ⟨c1 ++ t :: c2, List.perm_middle.trans (hp.cons t), List.rel_append h3 (.cons h1 h4)⟩

/-- What a store shows of a distributed program: the delivered annotations, in the tree of the program. -/
theorem services_delivered {reg : Registry} (hreg : registerAll libraryEvents [] = some reg) {ops : List StoreOp} {ms : MemStore}
    (h : MemStore.new.run ops = some ms) {root : Handled} (hok : root.Ok)
    (hfirst : root.req.header.Lacks b!"Span-Id" ∧ root.req.header.Lacks b!"Parent-Span-Id")
    (hd : (root.tree.spans.map fun sp => sp.id.span).Nodup) (hz : ∀ sp ∈ root.tree.spans, sp.id.span ≠ 0)
    (hL : (live root.req.id.trace ops).Perm root.deliveries) :
    ∃ (f : SpanID → List Annotation) (tr : Tree), (∀ d ∈ root.deliveries, d.2 = f d.1) ∧ ms.view root.req.id.trace = .found tr ∧
      TreeEquiv tr (reannotate f root.tree) ∧ ∀ sp ∈ tr.spans, sp.annotations = f sp.id := by
  have hids := deliveries_ids hreg root hok
  have hnd : (root.deliveries.map Prod.fst).Nodup := by
    rw [hids]
    refine List.Nodup.of_map SpanID.span ?_
    rw [List.map_map]
    exact hd
  obtain ⟨f, hf⟩ := as_function hnd
  have hsok : root.req.Ok := by
    cases hok with
    | mk _ _ _ _ h1 _ _ _ _ => exact h1
  have hc : CausalTree root.tree := by
    refine ⟨?_, handled_derived root hok, hd, hz⟩
    obtain ⟨id, h1, h2, h3, h4⟩ := no_header root.req.env.src root.req.n root.req.header hfirst.1 hfirst.2
    rw [hsok.span] at h1
    rw [tree_span]
    injection h1 with h1
    injection h1 with h1
    rw [h1]
    refine ⟨id.trace, id.span, ?_⟩
    cases id
    simp only [newRootSpanID, SpanID.mk.injEq]
    exact ⟨trivial, trivial, h2⟩
  rw [← tree_span] at hL ⊢
  have hL' : (live root.tree.span.id.trace ops).Perm (root.tree.spans.map fun sp => (sp.id, f sp.id)) := by
    rw [hf, hids, List.map_map] at hL
    exact hL
  obtain ⟨tr, h1, h2, h3⟩ := recordings_view h hc f hL'
  refine ⟨f, tr, ?_, h1, h2, fun sp hsp => (h3 sp hsp).2⟩
  intro d hd'
  rw [hf] at hd'
  obtain ⟨i, -, rfl⟩ := List.mem_map.1 hd'
  rfl

mutual
theorem requests_ok : ∀ h : Handled, h.Ok → ∀ s ∈ h.requests, s.Ok
  | .mk s calls locals children, hok, s', hs => by
    cases hok with
    | mk _ _ _ _ h1 h2 h3 h4 h5 =>
      simp only [Handled.requests, List.mem_cons] at hs
      rcases hs with rfl | hs
      · exact h1
      · exact requestsOf_ok children h4 s' hs
theorem requestsOf_ok : ∀ hs : List Handled, (∀ h ∈ hs, h.Ok) → ∀ s ∈ Handled.requestsOf hs, s.Ok
  | [], _, s, h => by simp [Handled.requestsOf] at h
  | k :: ks, hok, s, h => by
    simp only [Handled.requestsOf, List.mem_append] at h
    rcases h with h | h
    · exact requests_ok k (hok k (List.mem_cons_self ..)) s h
    · exact requestsOf_ok ks (fun h hh => hok h (List.mem_cons_of_mem _ hh)) s h
end

mutual
theorem clientCalls_ok : ∀ h : Handled, h.Ok → ∀ c ∈ h.clientCalls, ∃ p, c.Ok p
  | .mk s calls locals children, hok, c, hc => by
    cases hok with
    | mk _ _ _ _ h1 h2 h3 h4 h5 =>
      simp only [Handled.clientCalls, List.mem_append] at hc
      rcases hc with hc | hc
      · exact ⟨_, h2 c hc⟩
      · exact clientCallsOf_ok children h4 c hc
theorem clientCallsOf_ok : ∀ hs : List Handled, (∀ h ∈ hs, h.Ok) → ∀ c ∈ Handled.clientCallsOf hs, ∃ p, c.Ok p
  | [], _, s, h => by simp [Handled.clientCallsOf] at h
  | k :: ks, hok, s, h => by
    simp only [Handled.clientCallsOf, List.mem_append] at h
    rcases h with h | h
    · exact clientCalls_ok k (hok k (List.mem_cons_self ..)) s h
    · exact clientCallsOf_ok ks (fun h hh => hok h (List.mem_cons_of_mem _ hh)) s h
end

mutual
theorem requests_delivered : ∀ h : Handled, ∀ s ∈ h.requests, ∀ rec, s.out.recorder = some rec → ∀ d ∈ rec.calls, d ∈ h.deliveries
  | .mk s calls locals children, s', hs, rec, hr, d, hd => by
    simp only [Handled.requests, List.mem_cons] at hs
    simp only [Handled.deliveries, List.mem_append]
    rcases hs with rfl | hs
    · left; rw [hr]; exact hd
    · exact .inr (.inr (requestsOf_delivered children s' hs rec hr d hd))
theorem requestsOf_delivered : ∀ hs : List Handled, ∀ s ∈ Handled.requestsOf hs, ∀ rec, s.out.recorder = some rec → ∀ d ∈ rec.calls,
    d ∈ Handled.deliveriesOf hs
  | [], s, h, _, _, _, _ => by simp [Handled.requestsOf] at h
  | k :: ks, s, h, rec, hr, d, hd => by
    simp only [Handled.requestsOf, List.mem_append] at h
    simp only [Handled.deliveriesOf, List.mem_append]
    rcases h with h | h
    · exact .inl (requests_delivered k s h rec hr d hd)
    · exact .inr (requestsOf_delivered ks s h rec hr d hd)
end

mutual
theorem clientCalls_delivered : ∀ h : Handled, ∀ c ∈ h.clientCalls, ∀ d ∈ c.out.recorder.calls, d ∈ h.deliveries
  | .mk s calls locals children, c, hc, d, hd => by
    simp only [Handled.clientCalls, List.mem_append] at hc
    simp only [Handled.deliveries, List.mem_append]
    rcases hc with hc | hc
    · exact .inr (.inl (.inl (List.mem_flatMap.2 ⟨c, hc, hd⟩)))
    · exact .inr (.inr (clientCallsOf_delivered children c hc d hd))
theorem clientCallsOf_delivered : ∀ hs : List Handled, ∀ c ∈ Handled.clientCallsOf hs, ∀ d ∈ c.out.recorder.calls, d ∈ Handled.deliveriesOf hs
  | [], s, h, _, _ => by simp [Handled.clientCallsOf] at h
  | k :: ks, s, h, d, hd => by
    simp only [Handled.clientCallsOf, List.mem_append] at h
    simp only [Handled.deliveriesOf, List.mem_append]
    rcases h with h | h
    · exact .inl (clientCalls_delivered k s h d hd)
    · exact .inr (clientCallsOf_delivered ks s h d hd)
end

theorem mem_treesSpans {c : Tree} {sp : Span} : ∀ {ts : List Tree}, c ∈ ts → sp ∈ c.spans → sp ∈ Tree.spansList ts
  | [], h, _ => by cases h
  | t :: ts, h, hs => by
    rw [Tree.spansList, List.mem_append]
    rcases List.mem_cons.1 h with rfl | h
    · exact .inl hs
    · exact .inr (mem_treesSpans h hs)

end Appdash
