import Verif.Proofs.Upload
import Verif.Proofs.Json

/-! # Uploading several traces -/

namespace Appdash

open Spec

theorem decode_exports (nils : SpanID → Bool × Bool) (trs : List Tree) (h : ∀ tr ∈ trs, UTF8Keys tr) :
    decodeSub (.arr (trs.map (encodeTrace nils))) = some (trs.map PTree.ofTree) := by
  have : ∀ trs : List Tree, (∀ tr ∈ trs, UTF8Keys tr) →
      decodeTraceList [] (trs.map (encodeTrace nils)) = some (trs.map JTrace.ofTree, []) := by
    intro trs
    induction trs with
    | nil => intro _; rfl
    | cons tr trs ih =>
      intro h
      simp only [List.map_cons, decodeTraceList, List.headD_nil, List.tail_nil, decodeTraceInto_encode, cleanTree_eq tr (h tr (by simp)),
        ih (fun u hu => h u (by simp [hu]))]
  have hres : ∀ trs : List Tree, JTrace.results (trs.map JTrace.ofTree) = trs.map PTree.ofTree := by
    intro trs
    induction trs with
    | nil => rfl
    | cons tr trs ih => simp only [List.map_cons, JTrace.results, JTrace.result_ofTree, ih]
  have h1 := this trs h
  cases trs with
  | nil => rfl
  | cons tr trs =>
    rw [List.map_cons] at h1 ⊢
    simp only [decodeSub, decodeSubInto, List.append_nil, h1, Option.map_some, hres]

theorem ofTree_trace_ne {t t' : ID} {tr : Tree} (W : WellPlaced t' tr) (h : t' ≠ t) :
    ∀ sp ∈ PTree.spansList [PTree.ofTree tr], sp.id.trace ≠ t := by
  intro sp hsp
  simp only [PTree.spansList, List.append_nil, ofTree_spans] at hsp
  rw [W.trace sp hsp]
  exact h

theorem upload_many (trs : List Tree) : ∀ ms, Reach ms → (∀ tr ∈ trs, WellPlaced tr.span.id.trace tr ∧ TrueRoot tr) →
    (trs.map fun tr => tr.span.id.trace).Nodup →
    (uploadTraces ms (trs.map PTree.ofTree)).2 = true ∧
    (∀ tr ∈ trs, ms.view tr.span.id.trace = .notFound →
      (uploadTraces ms (trs.map PTree.ofTree)).1.view tr.span.id.trace = .found tr) ∧
    ∀ t, (ms.view t ≠ .notFound ∨ ∀ tr ∈ trs, tr.span.id.trace ≠ t) →
      (uploadTraces ms (trs.map PTree.ofTree)).1.view t = ms.view t := by
  induction trs with
  | nil =>
    intro ms _ _ _
    exact ⟨rfl, by simp, fun _ _ => rfl⟩
  | cons tr trs ih =>
    intro ms hms hw hd
    obtain ⟨W, R⟩ := hw tr (by simp)
    simp only [List.map_cons, List.nodup_cons] at hd
    have hw' := fun u hu => hw u (List.mem_cons_of_mem _ hu)
    have hne : ∀ u ∈ trs, u.span.id.trace ≠ tr.span.id.trace := by
      intro u hu e
      exact hd.1 (by rw [← e]; exact List.mem_map.2 ⟨u, hu, rfl⟩)
    have happ := upload_append [PTree.ofTree tr] (trs.map PTree.ofTree) ms
    simp only [List.singleton_append] at happ
    rw [List.map_cons, happ]
    by_cases hn : ms.view tr.span.id.trace = .notFound
    · obtain ⟨ms1, h1, h2⟩ := upload_single hms tr hn
      obtain ⟨ops, h0⟩ := hms
      have hr1 := (view_after_spans h0 W hn h2).2 R
      have hR1 : Reach ms1 := Reach.of_run ⟨ops, h0⟩ h2
      have ho : ∀ t, tr.span.id.trace ≠ t → ms1.view t = ms.view t := by
        intro t ht
        have := upload_other ⟨ops, h0⟩ [PTree.ofTree tr] t (ofTree_trace_ne W ht)
        rw [h1] at this
        exact this
      obtain ⟨i1, i2, i3⟩ := ih ms1 hR1 hw' hd.2
      rw [h1]
      simp only [if_true]
      refine ⟨i1, ?_, ?_⟩
      · intro u hu hv
        rcases List.mem_cons.1 hu with rfl | hu
        · rw [i3 _ (.inr hne), hr1]
        · exact i2 u hu (by rw [ho _ (fun e => hne u hu e.symm)]; exact hv)
      · intro t ht
        by_cases e : tr.span.id.trace = t
        · subst e
          rcases ht with ht | ht
          · exact absurd hn ht
          · exact absurd rfl (ht tr (by simp))
        · rw [i3 t ?_, ho t e]
          rw [ho t e]
          exact ht.imp id (fun h u hu => h u (List.mem_cons_of_mem _ hu))
    · have h1 : uploadTraces ms [PTree.ofTree tr] = (ms, true) := by
        cases tr with
        | node s ts =>
          cases hp : ms.tracePtr s.id.trace with
          | none => exact absurd ((view_notFound_iff ms _).2 hp) hn
          | some a => simp only [PTree.ofTree, uploadTraces, hp]
      obtain ⟨i1, i2, i3⟩ := ih ms hms hw' hd.2
      rw [h1]
      simp only [if_true]
      refine ⟨i1, ?_, ?_⟩
      · intro u hu hv
        rcases List.mem_cons.1 hu with rfl | hu
        · exact absurd hv hn
        · exact i2 u hu hv
      · intro t ht
        exact i3 t (ht.imp id (fun h u hu => h u (List.mem_cons_of_mem _ hu)))

end Appdash
