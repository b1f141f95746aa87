import Verif.Proofs.CollectorServer
import Verif.Spec.CollectorServer
import Verif.Properties.EndToEnd

/-!
# How much a server has left to do
-/

namespace Appdash

open Spec

theorem flatMap_pick {α : Type} (a : Nat) (x : α) (f : Nat → List α) : ∀ R : List Nat, R.Nodup →
    (a ∈ R → (R.flatMap fun i => if a = i then x :: f i else f i).Perm (x :: R.flatMap f)) ∧
    (a ∉ R → (R.flatMap fun i => if a = i then x :: f i else f i) = R.flatMap f)
  | [], _ => ⟨fun h => by simp at h, fun _ => rfl⟩
  | i :: R, h => by
    obtain ⟨h1, h2⟩ := List.nodup_cons.1 h
    have ih := flatMap_pick a x f R h2
    constructor
    · intro ha
      rw [List.flatMap_cons, List.flatMap_cons]
      by_cases e : a = i
      · subst e
        rw [ih.2 h1, if_pos rfl]
        rfl
      · rw [if_neg e]
        have := ih.1 ((List.mem_cons.1 ha).resolve_left e)
        exact (this.append_left (f i)).trans List.perm_middle
    · intro ha
      rw [List.flatMap_cons, List.flatMap_cons, ih.2 fun h => ha (List.mem_cons_of_mem _ h), if_neg]
      exact fun e => ha (by simp [e])

theorem calls_partition (l : List (Nat × Delivery)) (n : Nat) (h : ∀ c ∈ l, c.1 < n) :
    (l.map Prod.snd).Perm ((List.range n).flatMap fun i => (l.filter (·.1 == i)).map Prod.snd) := by
  induction l with
  | nil => simp
  | cons c l ih =>
    have e : (fun i => ((c :: l).filter (·.1 == i)).map Prod.snd) =
        fun i => if c.1 = i then c.2 :: (l.filter (·.1 == i)).map Prod.snd else (l.filter (·.1 == i)).map Prod.snd := by
      funext i
      rw [List.filter_cons]
      by_cases hi : c.1 = i
      · simp [hi]
      · simp [hi]
    rw [e]
    have := (flatMap_pick c.1 c.2 (fun i => (l.filter (·.1 == i)).map Prod.snd) _ List.nodup_range).1
      (List.mem_range.2 (h c (List.mem_cons_self ..)))
    exact ((ih fun c hc => h c (List.mem_cons_of_mem _ hc)).cons c.2).trans this.symm

theorem range_flatMap_get {α β : Type} (l : List α) (f : α → List β) (g : Nat → List β)
    (h : ∀ (i : Nat) (a : α), l[i]? = some a → g i = f a) : (List.range l.length).flatMap g = l.flatMap f := by
  induction l generalizing g with
  | nil => rfl
  | cons a l ih =>
    rw [List.length_cons, List.range_succ_eq_map, List.flatMap_cons, List.flatMap_cons, h 0 a rfl, List.flatMap_map,
      ih (fun i => g (i + 1)) fun i b hb => h (i + 1) b hb]

/-- The number of reads that the handlers can still make. -/
def connWork (k : SrvConn) : Nat := k.unread.length + if k.result = none then 1 else 0

def serverWork (s : ServerState) : Nat := (s.conns.map connWork).sum

theorem work_sum_set {l : List SrvConn} {i : Nat} {k k' : SrvConn} (h : l[i]? = some k) (hk : connWork k' < connWork k) :
    ((l.set i k').map connWork).sum < (l.map connWork).sum := by
  induction l generalizing i with
  | nil => simp at h
  | cons a l ih =>
    cases i with
    | zero =>
      simp only [List.getElem?_cons_zero, Option.some.injEq] at h
      subst h
      simp only [List.set_cons_zero, List.map_cons, List.sum_cons]
      omega
    | succ i =>
      simp only [List.getElem?_cons_succ] at h
      have := ih h
      simp only [List.set_cons_succ, List.map_cons, List.sum_cons]
      omega

theorem readNow_ok {s rest : Bytes} {e : Bool} {p : WPacket} (h : readNow s e = some (.ok p rest)) : readMsg s = .ok p rest := by
  cases e with
  | true => rw [readNow_ended] at h; injection h
  | false => exact (readNow_open h []).2.2

theorem handlerStep_work {s s' : ServerState} (h : HandlerStep s s') : serverWork s' < serverWork s := by
  cases h with
  | collect _ hk hr hrd _ _ _ =>
    have := (readMsg_length (readNow_ok hrd)).1
    exact work_sum_set hk (by simp only [connWork]; omega)
  | panic _ hk hr _ _ => exact work_sum_set hk (by simp [connWork, hr])
  | eof _ hk hr _ => exact work_sum_set hk (by simp [connWork, hr])
  | fail _ hk hr _ => exact work_sum_set hk (by simp [connWork, hr])

theorem settled_conn {s : ServerState} (h : ServerReachable s) (hs : Settled s) (hc : s.crashed = false) {i : Nat} {k : SrvConn}
    (hk : s.conns[i]? = some k) (hr : k.result = none) : readNow k.unread k.ended = none := by
  cases hrd : readNow k.unread k.ended with
  | none => rfl
  | some r =>
    exfalso
    cases r with
    | eof => exact hs _ (.eof hc hk hr hrd)
    | err => exact hs _ (.fail hc hk hr hrd)
    | ok p rest =>
      cases hid : spanIDFromWire p.spanid with
      | none => exact hs _ (.panic hc hk hr hrd (.inl hid))
      | some id =>
        cases has : annotationsFromWire p.annotation with
        | none => exact hs _ (.panic hc hk hr hrd (.inr has))
        | some as =>
          obtain ⟨ms, hms⟩ := collect_never_panics ((s.calls.map fun c => StoreOp.collect c.2.1 c.2.2) ++ [.collect id as])
          rw [run_append, (server_inv h).store, Option.bind_some, MemStore.run, MemStore.step] at hms
          cases hcol : s.store.collect id as with
          | none => rw [hcol] at hms; cases hms
          | some ms' => exact hs _ (.collect hc hk hr hrd hid has hcol)

end Appdash
