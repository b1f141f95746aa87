import Verif.Proofs.StoreConc

/-! # Property C27: concurrent store calls are serialisable -/

namespace Appdash

/-- C27: whatever the interleaving of the individual statements of any number of goroutines calling `Collect`,
`Delete`, `Trace` and `Traces`: when the lock is free, the store is in the state reached by performing the finished
mutating calls one at a time, in the order in which they held the lock; and at any time every finished call got the
reply it gets when the calls before it in that order are performed one at a time.  (`opsOf` keeps the collect and
delete calls of a list of finished calls; `replyFrom` says what a call returns in a given state.) -/
theorem store_serialisable (c : Mutex.Config storeMachine) (hc : Mutex.Reachable storeMachine MemStore.new c) :
    (c.holder = none → MemStore.new.run (opsOf c.log) = some c.shared) ∧
    ∀ k i call reply, c.log[k]? = some (i, call, reply) →
      ∃ ms, MemStore.new.run (opsOf (c.log.take k)) = some ms ∧ replyFrom ms call reply := by
  have hM : ∀ op s s' r, Mutex.Runs storeMachine (storeMachine.start op) s s' r →
      ((AMap.keys s.trace).Nodup → storeExec op s s' r) := fun op s s' r h hn => store_runs hn h
  obtain ⟨h1, mid, h2⟩ := Mutex.serialised (M := storeMachine)
    (exec := fun c ms ms' r => (AMap.keys ms.trace).Nodup → storeExec c ms ms' r) hM hc
  exact ⟨fun hn => (store_sequential (h1 hn) rfl).1, (store_sequential h2 rfl).2⟩

/-- C27: no two goroutines are ever inside the store at the same time. -/
theorem store_mutual_exclusion (c : Mutex.Config storeMachine) (hc : Mutex.Reachable storeMachine MemStore.new c)
    (i j : Nat) (op op' : StoreCall) (l l' : StorePC) (hi : c.threads i = .inside op l)
    (hj : c.threads j = .inside op' l') : i = j := Mutex.exclusion hc hi hj

/-- C27: a goroutine inside the store can always run on to the end of its call, so the lock is always released (no
panic and no endless loop can leave it held). -/
theorem store_calls_complete (c : Mutex.Config storeMachine) (hc : Mutex.Reachable storeMachine MemStore.new c)
    (i : Nat) (op : StoreCall) (l : StorePC) (hi : c.threads i = .inside op l) :
    ∃ ms' reply, Mutex.Runs storeMachine l c.shared ms' reply := completable_reachable hc hi

/-- A reachable configuration in which two goroutines have interleaved: goroutine 2 asks for the trace while goroutine
1 is in the middle of collecting, and gets its answer after it. -/
example : ∃ c : Mutex.Config storeMachine, Mutex.Reachable storeMachine MemStore.new c ∧ c.holder = none ∧
    c.log = [(1, .collect ⟨7, 1, 0⟩ [], .done), (2, .trace 7, .ptr (some 0))] := by
  have r0 := Mutex.Reachable.init (M := storeMachine) (s := MemStore.new)
  have r1 := r0.step (.call _ 1 (.collect ⟨7, 1, 0⟩ []) rfl)
  have r2 := r1.step (.lock _ 1 _ rfl rfl)
  have r3 := r2.step (.micro _ 1 _ _ _ _ rfl (StoreStep.initMissing _ ⟨7, 1, 0⟩ [] rfl))
  have r4 := r3.step (.call _ 2 (.trace 7) rfl)
  have r5 := r4.step (.micro _ 1 _ _ _ _ rfl (StoreStep.spanNew _ ⟨7, 1, 0⟩ [] [] rfl rfl))
  have r6 := r5.step (.micro _ 1 _ _ _ _ rfl (StoreStep.rootNew _ ⟨7, 1, 0⟩ 0 rfl))
  have r7 := r6.step (.micro _ 1 _ _ _ _ rfl (StoreStep.fixNo _ ⟨7, 1, 0⟩ 0 0 (by simp)))
  have r8 := r7.step (.micro _ 1 _ _ _ _ rfl (StoreStep.insertNo _ ⟨7, 1, 0⟩ 0 0 (by simp)))
  have r9 := r8.step (.finish _ 1 _ _ _ _ rfl (StoreStep.reattachNo _ 0 0 rfl))
  have r10 := r9.step (.lock _ 2 (.trace 7) rfl rfl)
  have r11 := r10.step (.finish _ 2 _ _ _ _ rfl (StoreStep.traceGet _ 7))
  exact ⟨_, r11, rfl, rfl⟩

end Appdash
