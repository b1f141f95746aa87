import Verif.Spec.ExampleWebapp
import Verif.Properties.Demo
import Verif.Properties.RecentTrace

/-!
# Lemmas on the example `webapp` (C153)
-/

namespace Appdash

open Spec

theorem forall₂_replicate {α β : Type} {r : α → β → Prop} (b : β) : ∀ {l : List α}, (∀ a ∈ l, r a b) → ∀ n, l.length = n →
    List.Forall₂ r l (List.replicate n b)
  | [], _, n, h => by subst h; exact .nil
  | a :: l, hl, n, h => by
    subst h
    exact .cons (hl a (by simp)) (forall₂_replicate b (fun a ha => hl a (by simp [ha])) _ rfl)

theorem mem_requestsOf {h : Handled} {s : ServedReq} (hr : s ∈ h.requests) (hs : List Handled) (hm : h ∈ hs) : s ∈ Handled.requestsOf hs := by
  induction hs with
  | nil => cases hm
  | cons h' hs ih =>
    rw [Handled.requestsOf, List.mem_append]
    rcases List.mem_cons.1 hm with rfl | hm
    · exact .inl hr
    · exact .inr (ih hm)

theorem trees_eq_map : ∀ hs : List Handled, Handled.trees hs = hs.map Handled.tree
  | [] => rfl
  | h :: hs => by rw [Handled.trees, trees_eq_map hs, List.map_cons]

/-- A request to the endpoint has made no calls. -/
theorem webapp_endpoint {k : Handled} (hk : WebappHandled k) (hp : k.req.request.urlPath = b!"/endpoint") : k.tree = .node ⟨k.req.id, []⟩ [] := by
  cases hk with
  | mk s calls children next route made arrived handled =>
    replace hp : s.request.urlPath = b!"/endpoint" := hp
    rw [hp] at made
    have hg : DemoStep.gets (webappSteps s.id b!"/endpoint") = [] := rfl
    rw [hg] at made
    cases made
    cases children with
    | cons h t => obtain ⟨c, hc, -⟩ := arrived h (by simp); cases hc
    | nil => rfl

/-- The name of a request to the example. -/
theorem webapp_request_named {k : Handled} (hk : WebappHandled k) (hok : k.Ok) {f : SpanID → List Annotation}
    (hf : ∀ s ∈ k.requests, ∀ rec, s.out.recorder = some rec → ∀ d ∈ rec.calls, d.2 = f d.1) (hne : k.req.request.urlPath ≠ []) :
    annotationsName (f k.req.id) = b!"Serve " ++ k.req.request.urlPath := by
  cases hk with
  | mk s calls children next route made arrived handled =>
  cases hok with
  | mk _ _ _ _ hs _ _ _ _ =>
    obtain ⟨rec, as, e1, e2, e3⟩ := served_named hs
    have := hf s (by simp [Handled.requests]) rec e1 (s.id, as) (by rw [e2]; exact List.mem_singleton.2 rfl)
    have hrun : s.run.request = s.request := by
      have h := hs.handler
      rw [next, webappNext] at h
      split at h <;> rw [← Option.some.inj h]
    show annotationsName (f s.id) = b!"Serve " ++ s.request.urlPath
    replace hne : s.request.urlPath ≠ [] := hne
    rw [← this, e3, route]
    simp only [Option.map_some, Option.getD_some, webappRoute, hrun]

/-- Any calls can be made at once, at time zero. -/
theorem recent_at_once {age : Int} (ha : 0 ≤ age) (ha' : age < 2 ^ 63 - 1) : ∀ L : List Entry, ∃ rs,
    RecentRuns age RecentStore.new (L.flatMap fun e => [.call ⟨0, 0, 0, 0⟩ e.1 e.2 [], .stored e.1 e.2]) rs ∧ rs.pending = [] ∧
      ((L = [] ∧ rs.lastEvicted = none ∧ rs.created = []) ∨ rs.lastEvicted = some 0) := by
  intro L
  induction L using List.reverseRecOn with
  | nil => exact ⟨_, .nil, rfl, .inl ⟨rfl, rfl, rfl⟩⟩
  | append_singleton L e ih =>
    obtain ⟨rs, r, hp, hl⟩ := ih
    rw [List.flatMap_append]
    obtain ⟨ms, e1, -⟩ := run_collect r.tracks.run e.1 e.2
    have fin : ∀ rs', RecentRuns age RecentStore.new ((L.flatMap fun e => [.call ⟨0, 0, 0, 0⟩ e.1 e.2 [], .stored e.1 e.2]) ++
        [.call ⟨0, 0, 0, 0⟩ e.1 e.2 []]) rs' → rs'.pending = [e] → rs'.under = rs.under → rs'.lastEvicted = some 0 → ∃ rs'',
        RecentRuns age RecentStore.new ((L.flatMap fun e => [.call ⟨0, 0, 0, 0⟩ e.1 e.2 [], .stored e.1 e.2]) ++
          ([e].flatMap fun e => [.call ⟨0, 0, 0, 0⟩ e.1 e.2 [], .stored e.1 e.2])) rs'' ∧ rs''.pending = [] ∧
          ((L ++ [e] = [] ∧ rs''.lastEvicted = none ∧ rs''.created = []) ∨ rs''.lastEvicted = some 0) := by
      intro rs' r' hp' hu hl'
      have := r'.snoc (RecentStep.store (a := []) (b := []) (id := e.1) (as := e.2) (by rw [hp']; rfl) (by rw [hu]; exact e1))
      rw [List.append_assoc] at this
      exact ⟨_, this, rfl, .inr hl'⟩
    rcases hl with ⟨rfl, hl, hc⟩ | hl
    · exact fin _ (r.snoc (RecentStep.evict (evicted := []) (by rw [hl]; exact ha') (by
        rw [hc]
        have : RecentStore.expired (RecentStore.note [] e.1.trace 0) (0 - age) = [] := by
          simp [RecentStore.note, AMap.get, AMap.set, RecentStore.expired]
          omega
        rw [this]))) (by simp [hp]) rfl rfl
    · exact fin _ (r.snoc (RecentStep.keep (by rw [hl]; simp only [RecentStore.sinceEvicted]; omega))) (by simp [hp]) rfl hl
end Appdash
