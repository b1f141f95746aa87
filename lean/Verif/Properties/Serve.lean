import Verif.Proofs.Serve
import Verif.Properties.Recent
import Verif.Properties.Persist

/-!
# Property C97: `appdash serve --delete-after` over restarts

`ServeRuns age Server.start h sv`: a server with `--delete-after` `age`, started without a store file, has made the observable steps `h`,
among them restarts and replacements of the store file, and is now in state `sv`.
-/

namespace Appdash

open Spec

/-- **C97**, as stated.  When nothing is left to be done, a trace that is found had a span collected at most twice `--delete-after` before
the last `Collect` call, plus the time `δ` an eviction takes.  This is demanded only of histories in which no call overlaps another one
or an eviction. -/
def DeleteAfterHolds : Prop :=
  ∀ (age δ : Int) (h1 h2 : List ServeObs) (c : Readings) (id : SpanID) (as : List Annotation) (ev : List ID) (sv : Server),
    0 ≤ age → age < 2 ^ 63 - 1 → ServeRuns age Server.start (h1 ++ .recent (.call c id as ev) :: h2) sv →
    Calm (h1 ++ .recent (.call c id as ev) :: h2) →
    Spec.Monotone 0 (recentPart (h1 ++ .recent (.call c id as ev) :: h2)) →
    (∀ c' id' as' ev', .recent (.call c' id' as' ev') ∈ h1 ++ .recent (.call c id as ev) :: h2 → c'.evict - c'.cutoff ≤ δ) →
    (∀ c' id' as' ev', .recent (.call c' id' as' ev') ∉ h2) → sv.rs.pending = [] → sv.rs.jobs = [] →
    ∀ t, sv.rs.under.view t ≠ .notFound →
      SeenFrom t (c.since - 2 * age - δ) (h1 ++ .recent (.call c id as ev) :: h2)

/-- **C97** (why it fails).  A trace that was read from the store file when the server was started, and of which no span arrives
afterwards, is never deleted: it is found, unchanged, after any further history, with any number of restarts. -/
theorem restored_never_deleted {age : Int} {h0 h1 : List ServeObs} {sv0 sv1 sv : Server} {t : ID} {tr : Tree}
    (r0 : ServeRuns age Server.start h0 sv0) (s : ServeStep age sv0 .restart sv1) (hv : sv1.rs.under.view t = .found tr)
    (r : ServeRuns age sv1 h1 sv) (hn : ∀ c id as ev, .recent (.call c id as ev) ∈ h1 → id.trace ≠ t) :
    sv.rs.under.view t = .found tr ∧ ∀ ids, .recent (.deleted ids) ∈ h1 → t ∉ ids := by
  have S0 := r0.sound Server.start_sound
  obtain ⟨R, d⟩ := (restored_of_restart S0 s hv).run r (S0.step s) hn
  exact ⟨R.view, d⟩

/-- **C97** (restarts).  After a restart every trace is shown as when the file was last replaced, except that empty annotation values may
have become nil. -/
theorem restart_restores {age : Int} {h0 h1 : List ServeObs} {sv0 sv1 sv2 sv3 : Server} (r0 : ServeRuns age Server.start h0 sv0)
    (p : ServeStep age sv0 .persist sv1) (r : ServeRuns age sv1 h1 sv2) (hp : .persist ∉ h1) (s : ServeStep age sv2 .restart sv3)
    (t : ID) : SameResult (sv0.rs.under.view t) (sv3.rs.under.view t) := by
  have S0 := r0.sound Server.start_sound
  cases s with
  | restart =>
    have hf := r.file hp
    cases p with
    | persist hw =>
      rw [hf]
      exact persist_round_trip S0.store hw MemStore.new t

/-- **C97** (what holds).  After a start the server makes the same observable steps as a `RecentStore` over an empty store; and it answers
as that one for every trace that was not read from the file, or was deleted since. -/
theorem serve_as_recent_partial {age : Int} {h0 h1 : List ServeObs} {sv0 sv1 sv : Server}
    (r0 : ServeRuns age Server.start h0 sv0) (s : ServeStep age sv0 .restart sv1) (r : ServeRuns age sv1 h1 sv) (hr : .restart ∉ h1) :
    ∃ rs, RecentRuns age RecentStore.new (recentPart h1) rs ∧ rs.created = sv.rs.created ∧ rs.pending = sv.rs.pending ∧
      rs.jobs = sv.rs.jobs ∧
      ∀ t, sv1.rs.under.view t = .notFound ∨ (∃ ids, .recent (.deleted ids) ∈ h1 ∧ t ∈ ids) →
        sv.rs.under.view t = rs.under.view t := by
  have S0 := r0.sound Server.start_sound
  have S1 := S0.step s
  have hrs : sv1.rs = { RecentStore.new with under := sv1.rs.under } := by cases s; rfl
  obtain ⟨rs, q1, q2, -, q3, q4, q5⟩ := (r.recent hr).over hrs
  refine ⟨rs, q1, q2, q3, q4, ?_⟩
  intro t ht
  have hn := q1.tracks.run
  have N := (run_state hn t).1
  rcases ht with ht | ⟨ids, k1, k2⟩
  · obtain ⟨ms, e, S⟩ := run_simT S1.store.sound.loose (S1.store.absent ht) rfl ((recentPart h1).filterMap underlying)
    rw [q5] at e
    injection e with e
    subst e
    exact view_simT S N
  · have hd : Deletes t ((recentPart h1).filterMap underlying) :=
      ⟨ids, List.mem_filterMap.2 ⟨.deleted ids, List.mem_filterMap.2 ⟨_, k1, rfl⟩, rfl⟩, k2⟩
    obtain ⟨ms, e, S⟩ := run_deletes S1.store.sound.loose hd
    rw [q5] at e
    injection e with e
    subst e
    exact view_simT (S []) N

/-- A time of `firstSeen` is that of a call. -/
theorem firstSeen_call {t : ID} : ∀ {h : List RecentObs} {s : Int}, firstSeen t h = some s →
    ∃ c id as ev, .call c id as ev ∈ h ∧ id.trace = t ∧ c.seen = s := by
  intro h
  induction h using List.reverseRecOn with
  | nil => intro s hs; cases hs
  | append_singleton h o ih =>
    intro s hs
    rw [firstSeen_snoc] at hs
    have lift : firstSeen t h = some s → ∃ c id as ev, .call c id as ev ∈ h ++ [o] ∧ id.trace = t ∧ c.seen = s := by
      intro hs
      obtain ⟨c, id, as, ev, h1, h2⟩ := ih hs
      exact ⟨c, id, as, ev, by simp [h1], h2⟩
    cases o with
    | stored => exact lift hs
    | deleted => exact lift hs
    | call c id as ev =>
      simp only [firstSeenStep] at hs
      split at hs
      · cases hs
      · split at hs
        · rename_i ht
          cases hf : firstSeen t h with
          | none =>
            rw [hf] at hs
            injection hs with hs
            exact ⟨c, id, as, ev, by simp, ht, hs⟩
          | some s' =>
            rw [hf] at hs
            exact lift (by rw [hf]; exact hs)
        · exact lift hs

/-- **C97** (nothing is deleted too early).  After a start, a trace is deleted only if a `Collect` call since then decided so, when the
trace had been first seen, since that start, more than `--delete-after` before. -/
theorem serve_deletes_old_partial {age : Int} {h0 h1 g1 g2 : List ServeObs} {sv0 sv1 sv : Server} {ids : List ID} {t : ID}
    (r0 : ServeRuns age Server.start h0 sv0) (s : ServeStep age sv0 .restart sv1) (r : ServeRuns age sv1 h1 sv) (hr : .restart ∉ h1)
    (he : h1 = g1 ++ .recent (.deleted ids) :: g2) (ht : t ∈ ids) :
    ∃ c id as f s, .recent (.call c id as ids) ∈ g1 ∧ f <+: recentPart g1 ∧ firstSeen t (f ++ [.call c id as []]) = some s ∧
      s + age < c.cutoff := by
  obtain ⟨rs, q1, -⟩ := serve_as_recent_partial r0 s r hr
  obtain ⟨f1, f2, c, id, as, s, e1, e2, e3⟩ := recent_evicts_old q1 (h1 := recentPart g1) (h2 := recentPart g2)
    (by rw [he, recentPart, List.filterMap_append]; rfl) ht
  refine ⟨c, id, as, f1, s, ?_, ⟨_, e1.symm⟩, e2, e3⟩
  have : RecentObs.call c id as ids ∈ recentPart g1 := by rw [e1]; simp
  obtain ⟨o, h2, h3⟩ := List.mem_filterMap.1 this
  cases o with
  | recent o => injection h3 with h3; subst h3; exact h2
  | persist => cases h3
  | restart => cases h3

/-- **C97** (what holds).  The property as stated holds of every trace that was not read from the file when the server was last started,
or was deleted since, if no `Collect` call for the trace overlaps an eviction of it.  Missing: traces read from the file. -/
theorem delete_after_partial {age δ start : Int} {h0 h1 h2 : List ServeObs} {sv0 sv1 sv : Server} {c : Readings} {id : SpanID}
    {as : List Annotation} {ev : List ID} (ha : 0 ≤ age) (ha' : age < 2 ^ 63 - 1)
    (r0 : ServeRuns age Server.start h0 sv0) (s : ServeStep age sv0 .restart sv1)
    (r : ServeRuns age sv1 (h1 ++ .recent (.call c id as ev) :: h2) sv) (hr : .restart ∉ h1 ++ .recent (.call c id as ev) :: h2)
    (m : Spec.Monotone start (recentPart (h1 ++ .recent (.call c id as ev) :: h2)))
    (hd : ∀ c' id' as' ev', .recent (.call c' id' as' ev') ∈ h1 ++ .recent (.call c id as ev) :: h2 → c'.evict - c'.cutoff ≤ δ)
    (hl : ∀ c' id' as' ev', .recent (.call c' id' as' ev') ∉ h2) (hp : sv.rs.pending = []) (hj : sv.rs.jobs = [])
    {t : ID} (a : Apart t (recentPart (h1 ++ .recent (.call c id as ev) :: h2)))
    (ht : sv1.rs.under.view t = .notFound ∨ ∃ ids, .recent (.deleted ids) ∈ h1 ++ .recent (.call c id as ev) :: h2 ∧ t ∈ ids)
    (hv : sv.rs.under.view t ≠ .notFound) : SeenFrom t (c.since - 2 * age - δ) (h1 ++ .recent (.call c id as ev) :: h2) := by
  obtain ⟨rs, q1, q2, q3, q4, q5⟩ := serve_as_recent_partial r0 s r hr
  rw [q5 t ht] at hv
  have hf := (recent_found_partial q1 a (q3.trans hp) (q4.trans hj)).1.1 hv
  have hpart : recentPart (h1 ++ .recent (.call c id as ev) :: h2) =
      (recentPart h1 ++ [.call c id as ev]) ++ recentPart h2 := by
    rw [recentPart, List.filterMap_append, List.filterMap_cons]
    simp [recentPart]
  have hback : ∀ o, o ∈ recentPart (h1 ++ .recent (.call c id as ev) :: h2) → .recent o ∈ h1 ++ .recent (.call c id as ev) :: h2 := by
    intro o ho
    obtain ⟨x, h2, h3⟩ := List.mem_filterMap.1 ho
    cases x with
    | recent o => injection h3 with h3; subst h3; exact h2
    | persist => cases h3
    | restart => cases h3
  have hsame : ∀ (l : List ServeObs) (h : List RecentObs), (∀ c' id' as' ev', .recent (.call c' id' as' ev') ∉ l) →
      firstSeen t (h ++ recentPart l) = firstSeen t h := by
    intro l
    induction l with
    | nil => intro h _; simp [recentPart]
    | cons o l ih =>
      intro h hc
      have ih := fun h => ih h (fun c' id' as' ev' hm => hc c' id' as' ev' (by simp [hm]))
      cases o with
      | persist => exact ih h
      | restart => exact ih h
      | recent o =>
        have e : h ++ recentPart (.recent o :: l) = (h ++ [o]) ++ recentPart l := by simp [recentPart]
        rw [e, ih, firstSeen_snoc]
        cases o with
        | call c' id' as' ev' => exact absurd (by simp) (hc c' id' as' ev')
        | stored => rfl
        | deleted => rfl
  rw [hpart, hsame h2 _ hl] at hf
  cases hs : firstSeen t (recentPart h1 ++ [.call c id as ev]) with
  | none => exact absurd hs hf
  | some s =>
    have hcut : ∃ rs1, RecentRuns age RecentStore.new (recentPart h1 ++ [.call c id as ev]) rs1 := by
      obtain ⟨rs1, rs2, r1, r2⟩ := q1.split (h1 := recentPart h1) (o := .call c id as ev) (h2 := recentPart h2)
        (by rw [hpart]; simp)
      exact ⟨_, r1.snoc r2⟩
    obtain ⟨rs1, r1⟩ := hcut
    have mono : ∀ (g' g : List RecentObs) (x : Int), Spec.Monotone x (g ++ g') → Spec.Monotone x g := by
      intro g'
      induction g' using List.reverseRecOn with
      | nil => intro g x hm; simpa using hm
      | append_singleton g' o ih =>
        intro g x hm
        rw [← List.append_assoc] at hm
        exact ih g x (monotone_snoc hm).1
    rw [hpart] at m
    have b := recent_bounds_age ha ha' r1 (mono _ _ _ m)
      (fun c' id' as' ev' hm => hd c' id' as' ev' (hback _ (by rw [hpart]; exact List.mem_append_left _ hm))) t s hs
    obtain ⟨c', id', as', ev', h3, h4, h5⟩ := firstSeen_call hs
    refine ⟨c', id', as', ev', hback _ (by rw [hpart]; exact List.mem_append_left _ h3), h4, by omega⟩

/-- The history used below, with `--delete-after` 10: a span of trace 1 is collected at time 0, the file is replaced, the server is
started again, and a span of trace 2 is collected at time 1000. -/
def serveHistory : List ServeObs :=
  [.recent (.call ⟨0, 0, 0, 0⟩ ⟨1, 1, 0⟩ [] []), .recent (.stored ⟨1, 1, 0⟩ []), .persist, .restart,
   .recent (.call ⟨1000, 1000, 1000, 1000⟩ ⟨2, 2, 0⟩ [] []), .recent (.stored ⟨2, 2, 0⟩ [])]

/-- It is the history of a server, which then has nothing left to be done and shows trace 1. -/
theorem serveHistory_runs : ∃ sv0 sv1 sv, ServeRuns 10 Server.start (serveHistory.take 3) sv0 ∧ ServeStep 10 sv0 .restart sv1 ∧
    ServeRuns 10 sv1 (serveHistory.drop 4) sv ∧ sv.rs.pending = [] ∧ sv.rs.jobs = [] ∧
    sv1.rs.under.view 1 = .found (.node ⟨⟨1, 1, 0⟩, []⟩ []) ∧ sv1.rs.under.view 2 = .notFound ∧
    ServeRuns 10 Server.start serveHistory sv ∧ sv.rs.under.view 1 = .found (.node ⟨⟨1, 1, 0⟩, []⟩ []) ∧
    sv.rs.under.view 2 = .found (.node ⟨⟨2, 2, 0⟩, []⟩ []) := by
  have e0 : ((MemStore.new.collect ⟨1, 1, 0⟩ []).bind fun m0 => (m0.write 1).bind fun d =>
      ((MemStore.new.readFrom (some d)).1.collect ⟨2, 2, 0⟩ []).map fun m1 =>
        ((MemStore.new.readFrom (some d)).1.view 1, (MemStore.new.readFrom (some d)).1.view 2, m1.view 1, m1.view 2)) =
      some (.found (.node ⟨⟨1, 1, 0⟩, []⟩ []), .notFound, .found (.node ⟨⟨1, 1, 0⟩, []⟩ []), .found (.node ⟨⟨2, 2, 0⟩, []⟩ [])) := by
    decide_cbv
  cases e1 : MemStore.new.collect ⟨1, 1, 0⟩ [] with
  | none => rw [e1] at e0; cases e0
  | some m0 =>
    rw [e1, Option.bind_some] at e0
    cases e2 : m0.write 1 with
    | none => rw [e2] at e0; cases e0
    | some d =>
      rw [e2, Option.bind_some] at e0
      cases e3 : (MemStore.new.readFrom (some d)).1.collect ⟨2, 2, 0⟩ [] with
      | none => rw [e3] at e0; cases e0
      | some m1 =>
        rw [e3, Option.map_some] at e0
        injection e0 with e0
        injection e0 with v1 e0
        injection e0 with v2 e0
        injection e0 with v3 v4
        have r1 : ServeRuns 10 Server.start [.recent (.call ⟨0, 0, 0, 0⟩ ⟨1, 1, 0⟩ [] [])] _ :=
          ServeRuns.snoc (h := []) .nil (.recent (RecentStep.evict (evicted := []) (by decide) (by decide)))
        have r2 := r1.snoc (.recent (RecentStep.store (a := []) (b := []) rfl e1))
        have r3 := r2.snoc (ServeStep.persist ⟨1, e2⟩)
        have s4 := fun sv (hf : sv.file = some d) => show ServeStep 10 sv .restart
            { rs := { RecentStore.new with under := (MemStore.new.readFrom (some d)).1 }, file := some d } by
          have := ServeStep.restart (age := 10) (sv := sv)
          simp only [hf] at this
          exact this
        have r5 : ServeRuns 10 { rs := { RecentStore.new with under := (MemStore.new.readFrom (some d)).1 }, file := some d }
            [.recent (.call ⟨1000, 1000, 1000, 1000⟩ ⟨2, 2, 0⟩ [] [])] _ :=
          ServeRuns.snoc (h := []) .nil (.recent (RecentStep.evict (evicted := []) (show RecentStore.sinceEvicted none 1000 > 10 by decide)
            (show [].Perm (RecentStore.expired (RecentStore.note [] 2 1000) (1000 - 10)) by decide)))
        have r6 := r5.snoc (.recent (RecentStep.store (a := []) (b := []) rfl e3))
        exact ⟨_, _, _, r3, s4 _ rfl, r6, rfl, rfl, v1, v2, (r3.snoc (s4 _ rfl)).trans r6, v3, v4⟩

theorem serveHistory_calm : Calm serveHistory := by
  intro h1 c id as ev h2 e
  simp only [serveHistory] at e
  rcases h1 with _ | ⟨a, _ | ⟨b, _ | ⟨c', _ | ⟨d, _ | ⟨f, _ | ⟨g, h1⟩⟩⟩⟩⟩⟩ <;> simp at e
  · obtain ⟨⟨-, rfl, rfl, rfl⟩, rfl⟩ := e
    exact ⟨_, rfl, fun h => absurd rfl h⟩
  · obtain ⟨-, -, -, -, ⟨-, rfl, rfl, rfl⟩, rfl⟩ := e
    exact ⟨_, rfl, fun h => absurd rfl h⟩

/-- **C97** is false. -/
theorem delete_after_false : ¬ DeleteAfterHolds := by
  intro hf
  obtain ⟨-, -, sv, -, -, -, hp, hj, -, -, r, hv, -⟩ := serveHistory_runs
  obtain ⟨c, id, as, ev, h1, h2, h3⟩ := hf 10 0 (serveHistory.take 4) [.recent (.stored ⟨2, 2, 0⟩ [])] _ _ _ _ sv (by decide) (by decide) r
    serveHistory_calm (by simp [recentPart, serveHistory, Spec.Monotone])
    (by
      intro c' id' as' ev' hm
      simp [serveHistory] at hm
      rcases hm with ⟨rfl, -⟩ | ⟨rfl, -⟩ <;> decide)
    (by simp) hp hj 1 (by rw [hv]; simp)
  simp [serveHistory] at h1
  rcases h1 with ⟨rfl, -⟩ | ⟨-, rfl, -⟩
  · exact absurd h3 (by decide)
  · exact absurd h2 (by decide)

/-- The hypotheses of `restored_never_deleted` are met by trace 1 in this history, and those of `delete_after_partial` by trace 2. -/
example : ∃ sv0 sv1 sv, ServeRuns 10 Server.start (serveHistory.take 3) sv0 ∧ ServeStep 10 sv0 .restart sv1 ∧
    ServeRuns 10 sv1 (serveHistory.drop 4) sv ∧ sv1.rs.under.view 1 = .found (.node ⟨⟨1, 1, 0⟩, []⟩ []) ∧
    (∀ c id as ev, .recent (.call c id as ev) ∈ serveHistory.drop 4 → id.trace ≠ 1) ∧
    sv1.rs.under.view 2 = .notFound ∧ .restart ∉ serveHistory.drop 4 ∧ sv.rs.under.view 2 ≠ .notFound ∧
    sv.rs.pending = [] ∧ sv.rs.jobs = [] := by
  obtain ⟨sv0, sv1, sv, h1, h2, h3, h4, h5, h6, h7, -, -, h8⟩ := serveHistory_runs
  refine ⟨sv0, sv1, sv, h1, h2, h3, h6, ?_, h7, by decide, by rw [h8]; simp, h4, h5⟩
  intro c id as ev hm
  simp [serveHistory] at hm
  obtain ⟨-, rfl, -⟩ := hm
  decide

example : Apart 2 (recentPart (serveHistory.drop 4)) ∧ Spec.Monotone 0 (recentPart (serveHistory.drop 4)) := by
  refine ⟨?_, by simp [recentPart, serveHistory, Spec.Monotone]⟩
  intro h1 c id as ev h2 e
  simp only [recentPart, serveHistory] at e
  rcases h1 with _ | ⟨a, _ | ⟨b, h1⟩⟩ <;> simp at e
  obtain ⟨⟨-, -, -, rfl⟩, -⟩ := e
  simp

end Appdash
