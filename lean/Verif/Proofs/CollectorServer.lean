import Verif.Model.CollectorServer
import Verif.Spec.Wire
import Verif.Proofs.Server
import Verif.Proofs.Python
import Verif.Properties.Store

/-!
# Lemmas about the collector server with many connections
-/

namespace Appdash

open Spec

/-! ## Reading from a stream that goes on -/

theorem decVarintLoop_append {k : Nat} {s r : Bytes} {v : Nat} (h : decVarintLoop k s = some (v, r)) (t : Bytes) :
    decVarintLoop k (s ++ t) = some (v, r ++ t) := by
  induction k generalizing s v r with
  | zero => cases h
  | succ k ih =>
    cases s with
    | nil => cases h
    | cons b s =>
      simp only [decVarintLoop, List.cons_append] at h ⊢
      split at h
      · rename_i hb
        simp only [Option.some.injEq, Prod.mk.injEq] at h
        rw [if_pos hb, h.1, h.2]
      · rename_i hb
        rw [if_neg hb]
        split at h
        · cases h
        · rename_i v' r' hd
          simp only [Option.some.injEq, Prod.mk.injEq] at h
          rw [ih hd]
          simp only [← h.1, ← h.2]

theorem decVarintLoop_none_append {k : Nat} {s : Bytes} (h : decVarintLoop k s = none) (hk : k ≤ s.length) (t : Bytes) :
    decVarintLoop k (s ++ t) = none := by
  induction k generalizing s with
  | zero => rfl
  | succ k ih =>
    cases s with
    | nil => simp at hk
    | cons b s =>
      simp only [decVarintLoop, List.cons_append] at h ⊢
      split at h
      · cases h
      · rename_i hb
        rw [if_neg hb]
        split at h
        · rename_i hd
          rw [ih hd (by simpa using hk)]
        · cases h

/-- The result of reading when more bytes follow. -/
def ReadRes.extend {α : Type} (t : Bytes) : ReadRes α → ReadRes α
  | .ok a r => .ok a (r ++ t)
  | .err => .err
  | .eof => .eof

theorem readNow_open {s : Bytes} {r : ReadRes WPacket} (h : readNow s false = some r) (t : Bytes) :
    readMsg (s ++ t) = r.extend t ∧ r ≠ .eof ∧ readMsg s = r := by
  simp only [readNow, Bool.false_eq_true, if_false] at h
  cases hd : decVarintLoop 10 s with
  | none =>
    simp only [hd] at h
    split at h
    · cases h
    · rename_i hl
      injection h with h
      have hne : s ≠ [] := by rintro rfl; simp at hl
      have hs : readMsg s = .err := by simp only [readMsg, readUvarint, hne, if_false, hd]
      have hst : readMsg (s ++ t) = .err := by
        simp only [readMsg, readUvarint, List.append_eq_nil_iff, hne, false_and, if_false, decVarintLoop_none_append hd (by omega) t]
      rw [hs] at h
      subst h
      exact ⟨hst, by simp, hs⟩
  | some p =>
    obtain ⟨n, r'⟩ := p
    simp only [hd] at h
    split at h
    · cases h
    · rename_i hc
      injection h with h
      have hne : s ≠ [] := by rintro rfl; simp [decVarintLoop] at hd
      have hs : readUvarint s = if n ≥ 2 ^ 64 then .err else .ok n r' := by
        simp only [readUvarint, hne, if_false, hd]
      have hst : readUvarint (s ++ t) = if n ≥ 2 ^ 64 then .err else .ok n (r' ++ t) := by
        simp only [readUvarint, List.append_eq_nil_iff, hne, false_and, if_false, decVarintLoop_append hd t]
      by_cases h64 : n ≥ 2 ^ 64
      · rw [if_pos h64] at hs hst
        have e : readMsg s = .err := by simp only [readMsg, hs]
        rw [e] at h
        subst h
        exact ⟨by simp only [readMsg, hst]; rfl, by simp, e⟩
      · rw [if_neg h64] at hs hst
        by_cases hm : n > maxMessageSize
        · have e : readMsg s = .err := by simp only [readMsg, hs, hm, if_true]
          rw [e] at h
          subst h
          exact ⟨by simp only [readMsg, hst, hm, if_true]; rfl, by simp, e⟩
        · have hl : ¬ r'.length < n := fun hl => hc ⟨by omega, hl⟩
          have hl' : ¬ (r' ++ t).length < n := by simp only [List.length_append]; omega
          have ht : (r' ++ t).take n = r'.take n := List.take_append_of_le_length (by omega)
          have hdr : (r' ++ t).drop n = r'.drop n ++ t := List.drop_append_of_le_length (by omega)
          cases hu : unmarshal (r'.take n) with
          | none =>
            have e : readMsg s = .err := by simp only [readMsg, hs, hm, if_false, hl, hu]
            have e' : readMsg (s ++ t) = .err := by simp only [readMsg, hst, hm, if_false, hl', ht, hu]
            rw [e] at h; subst h
            exact ⟨e', by simp, e⟩
          | some p =>
            have e : readMsg s = .ok p (r'.drop n) := by simp only [readMsg, hs, hm, if_false, hl, hu]
            have e' : readMsg (s ++ t) = .ok p (r'.drop n ++ t) := by simp only [readMsg, hst, hm, if_false, hl', ht, hu, hdr]
            rw [e] at h; subst h
            exact ⟨e', by simp, e⟩

theorem readNow_ended (s : Bytes) : readNow s true = some (readMsg s) := rfl

theorem readNow_none {s : Bytes} {e : Bool} (h : readNow s e = none) : readMsg s = .eof ∨ readMsg s = .err := by
  cases e with
  | true => cases h
  | false =>
    simp only [readNow, Bool.false_eq_true, if_false] at h
    cases hd : decVarintLoop 10 s with
    | none =>
      by_cases hs : s = []
      · exact .inl (by simp [readMsg, readUvarint, hs])
      · exact .inr (by simp only [readMsg, readUvarint, hs, if_false, hd])
    | some p =>
      obtain ⟨n, r⟩ := p
      simp only [hd] at h
      split at h
      · rename_i hc
        have hs : s ≠ [] := by rintro rfl; simp [decVarintLoop] at hd
        have h64 : ¬ n ≥ 2 ^ 64 := by have := hc.1; unfold maxMessageSize at this; omega
        have hm : ¬ n > maxMessageSize := by omega
        simp only [readMsg, readUvarint, hs, if_false, hd, h64, hm, hc.2, if_true]
        split
        · exact .inl rfl
        · exact .inr rfl
      · cases h

/-- What a read returns, with what may follow. -/
theorem readNow_spec {s : Bytes} {e : Bool} {r : ReadRes WPacket} (h : readNow s e = some r) {t : Bytes} (ht : e = true → t = []) :
    readMsg (s ++ t) = r.extend t := by
  cases e with
  | true =>
    rw [ht rfl, List.append_nil]
    rw [readNow_ended] at h
    injection h with h
    subst h
    cases readMsg s <;> simp [ReadRes.extend]
  | false => exact (readNow_open h t).1

/-! ## The handler -/

/-- The rest of a handler's work. -/
def handleRest (acc : List Delivery) (s : Bytes) : List Delivery × ConnEnd := handleLoop acceptAll (s.length + 1) acc s

theorem handleRest_ok {acc : List Delivery} {s rest : Bytes} {p : WPacket} {id : SpanID} {as : List Annotation}
    (h : readMsg s = .ok p rest) (hi : spanIDFromWire p.spanid = some id) (ha : annotationsFromWire p.annotation = some as) :
    handleRest acc s = handleRest (acc ++ [(id, as)]) rest := by
  have := (readMsg_length h).1
  simp only [handleRest]
  rw [handleLoop]
  simp only [h, hi, ha, acceptAll, Bool.false_eq_true, if_false]
  exact handleLoop_fuel (by omega) (by omega)

theorem handleRest_panic {acc : List Delivery} {s rest : Bytes} {p : WPacket} (h : readMsg s = .ok p rest)
    (hn : spanIDFromWire p.spanid = none ∨ annotationsFromWire p.annotation = none) : handleRest acc s = (acc, .panicked) := by
  simp only [handleRest, handleLoop, h]
  rcases hn with hn | hn
  · simp only [hn]
  · cases spanIDFromWire p.spanid <;> simp only [hn]

theorem handleRest_eof {acc : List Delivery} {s : Bytes} (h : readMsg s = .eof) : handleRest acc s = (acc, .closed) := by
  simp only [handleRest, handleLoop, h]

theorem handleRest_err {acc : List Delivery} {s : Bytes} (h : readMsg s = .err) : handleRest acc s = (acc, .readError) := by
  simp only [handleRest, handleLoop, h]

theorem handleRest_prefix (acc : List Delivery) (s : Bytes) : acc <+: (handleRest acc s).1 := Py.handleLoop_prefix _ acc s

/-! ## The invariant -/

theorem callsFrom_append (s : ServerState) (j : Nat) (d : Delivery) (i : Nat) (st : ServerState) (h : st.calls = s.calls ++ [(j, d)]) :
    st.callsFrom i = if j = i then s.callsFrom i ++ [d] else s.callsFrom i := by
  simp only [ServerState.callsFrom, h, List.filter_append, List.map_append]
  by_cases hji : j = i
  · simp [hji]
  · simp [hji]

/-- What is true of a connection. -/
structure ConnInv (calls : List Delivery) (k : SrvConn) : Prop where
  active : k.result = none → ∀ t, (k.ended = true → t = []) → handleRest [] (k.received ++ t) = handleRest calls (k.unread ++ t)
  over : ∀ e, k.result = some e → k.broken = false → ∀ t, (k.ended = true → t = []) → handleRest [] (k.received ++ t) = (calls, e)
  broke : k.broken = true → ∀ t, (k.ended = true → t = []) → calls <+: (handleRest [] (k.received ++ t)).1
  brokenErr : k.broken = true → k.result = some .readError

theorem ConnInv.notBroken {calls : List Delivery} {k : SrvConn} (h : ConnInv calls k) (hr : k.result = none) : k.broken = false := by
  cases hb : k.broken with
  | false => rfl
  | true => rw [h.brokenErr hb] at hr; cases hr

theorem ConnInv.new : ConnInv [] {} := ⟨fun _ _ _ => rfl, fun _ h => by simp at h, fun h => by simp at h, fun h => by simp at h⟩

/-- What is true of a server. -/
structure ServerInv (s : ServerState) : Prop where
  conns : ∀ (i : Nat) (k : SrvConn), s.conns[i]? = some k → ConnInv (s.callsFrom i) k
  future : ∀ c ∈ s.calls, c.1 < s.conns.length
  store : MemStore.new.run (s.calls.map fun c => .collect c.2.1 c.2.2) = some s.store
  crash : s.crashed = true ↔ ∃ (i : Nat) (k : SrvConn), s.conns[i]? = some k ∧ k.result = some .panicked
  running : s.pc ≠ .returned


theorem ServerInv.new : ServerInv ServerState.new where
  conns := fun i k h => by simp [ServerState.new] at h
  future := fun c h => by simp [ServerState.new] at h
  store := rfl
  crash := by simp [ServerState.new]
  running := by simp [ServerState.new]

/-- A connection changes, but not the calls. -/
theorem ServerInv.set {s : ServerState} (hs : ServerInv s) {i : Nat} {k k' : SrvConn} (hk : s.conns[i]? = some k)
    (hk' : ConnInv (s.callsFrom i) k') (hp : k'.result = some .panicked ↔ k.result = some .panicked) (n : Nat) :
    ServerInv { s.setConn i k' with logged := n } := by
  have hi := (List.getElem?_eq_some_iff.1 hk).1
  have hget : ∀ j : Nat, (s.conns.set i k')[j]? = if i = j then some k' else s.conns[j]? := by
    intro j
    rw [List.getElem?_set]
    simp only [hi, if_true]
  refine ⟨?_, ?_, hs.store, ?_, hs.running⟩
  · intro j x hx
    have hx : (s.conns.set i k')[j]? = some x := hx
    rw [hget] at hx
    split at hx
    · rename_i e
      injection hx with hx
      subst hx e
      exact hk'
    · exact hs.conns j x hx
  · intro c hc
    have := hs.future c hc
    simpa [ServerState.setConn] using this
  · show s.crashed = true ↔ ∃ (j : Nat) (x : SrvConn), (s.conns.set i k')[j]? = some x ∧ _
    rw [hs.crash]
    constructor
    · rintro ⟨j, x, h1, h2⟩
      by_cases e : i = j
      · subst e
        rw [hk] at h1
        injection h1 with h1
        subst h1
        exact ⟨i, k', by rw [hget, if_pos rfl], hp.2 h2⟩
      · exact ⟨j, x, by rw [hget, if_neg e]; exact h1, h2⟩
    · rintro ⟨j, x, h1, h2⟩
      rw [hget] at h1
      split at h1
      · injection h1 with h1
        subst h1
        exact ⟨i, k, hk, hp.1 h2⟩
      · exact ⟨j, x, h1, h2⟩

theorem handlerStep_inv {s s' : ServerState} (hs : ServerInv s) (h : HandlerStep s s') : ServerInv s' := by
  cases h with
  | @collect i k p rest id as ms hc hk hr hrd hid has hms =>
    have hi := (List.getElem?_eq_some_iff.1 hk).1
    have hget : ∀ j : Nat, (s.conns.set i { k with unread := rest })[j]? = if i = j then some { k with unread := rest } else s.conns[j]? := by
      intro j
      rw [List.getElem?_set]
      simp only [hi, if_true]
    have hI := hs.conns i k hk
    refine ⟨?_, ?_, ?_, ?_, hs.running⟩
    · intro j x hx
      rw [callsFrom_append s i (id, as) j _ rfl]
      have hx : (s.conns.set i { k with unread := rest })[j]? = some x := hx
      rw [hget] at hx
      split at hx
      · rename_i e
        injection hx with hx
        subst hx e
        rw [if_pos rfl]
        refine ⟨?_, ?_, ?_, hI.brokenErr⟩
        · intro _ t ht
          rw [hI.active hr t ht]
          exact handleRest_ok (readNow_spec hrd ht) hid has
        · intro e he; rw [show ({ k with unread := rest } : SrvConn).result = k.result from rfl, hr] at he; cases he
        · intro hb
          have := hI.notBroken hr
          rw [show ({ k with unread := rest } : SrvConn).broken = k.broken from rfl, this] at hb
          cases hb
      · rename_i e
        rw [if_neg e]
        exact hs.conns j x hx
    · intro c hc
      simp only [ServerState.setConn, List.length_set]
      rcases List.mem_append.1 hc with hc | hc
      · exact hs.future c hc
      · rw [List.mem_singleton.1 hc]; exact hi
    · have hm : (s.calls ++ [(i, (id, as))]).map (fun c => StoreOp.collect c.2.1 c.2.2) =
        s.calls.map (fun c => StoreOp.collect c.2.1 c.2.2) ++ [.collect id as] := by rw [List.map_append]; rfl
      show MemStore.new.run ((s.calls ++ [(i, (id, as))]).map fun c => StoreOp.collect c.2.1 c.2.2) = some ms
      rw [hm, run_append, hs.store, Option.bind_some, MemStore.run, MemStore.step, hms]
      rfl
    · show s.crashed = true ↔ ∃ (j : Nat) (x : SrvConn), (s.conns.set i { k with unread := rest })[j]? = some x ∧ _
      rw [hs.crash]
      constructor
      · rintro ⟨j, x, h1, h2⟩
        by_cases e : i = j
        · subst e
          rw [hk] at h1
          injection h1 with h1
          rw [← h1, hr] at h2
          cases h2
        · exact ⟨j, x, by rw [hget, if_neg e]; exact h1, h2⟩
      · rintro ⟨j, x, h1, h2⟩
        rw [hget] at h1
        split at h1
        · injection h1 with h1
          rw [← h1, show ({ k with unread := rest } : SrvConn).result = k.result from rfl, hr] at h2
          cases h2
        · exact ⟨j, x, h1, h2⟩
  | @panic i k p rest hc hk hr hrd hn =>
    have hi := (List.getElem?_eq_some_iff.1 hk).1
    have hI := hs.conns i k hk
    have hk' : ConnInv (s.callsFrom i) { k with result := some .panicked } := by
      refine ⟨fun h => (by simp at h), ?_, fun hb => ?_, fun hb => ?_⟩
      · intro e he _ t ht
        injection he with he
        rw [← he, hI.active hr t ht]
        exact handleRest_panic (readNow_spec hrd ht) hn
      · rw [show ({ k with result := some .panicked } : SrvConn).broken = k.broken from rfl, hI.notBroken hr] at hb
        cases hb
      · rw [show ({ k with result := some .panicked } : SrvConn).broken = k.broken from rfl, hI.notBroken hr] at hb
        cases hb
    have hget : ∀ j : Nat, (s.conns.set i { k with result := some .panicked })[j]? =
        if i = j then some { k with result := some .panicked } else s.conns[j]? := by
      intro j
      rw [List.getElem?_set]
      simp only [hi, if_true]
    refine ⟨?_, ?_, hs.store, ?_, hs.running⟩
    · intro j x hx
      have hx : (s.conns.set i { k with result := some .panicked })[j]? = some x := hx
      rw [hget] at hx
      split at hx
      · rename_i e
        injection hx with hx
        subst hx e
        exact hk'
      · exact hs.conns j x hx
    · intro c hc
      simpa [ServerState.setConn] using hs.future c hc
    · exact ⟨fun _ => ⟨i, _, by show (s.conns.set i _)[i]? = _; rw [hget, if_pos rfl], rfl⟩, fun _ => rfl⟩
  | @eof i k hc hk hr hrd =>
    have hI := hs.conns i k hk
    refine hs.set hk ⟨fun h => (by simp at h), ?_, fun hb => ?_, fun hb => ?_⟩ (by simp [hr]) s.logged
    · intro e he _ t ht
      injection he with he
      rw [← he, hI.active hr t ht]
      exact handleRest_eof (readNow_spec hrd ht)
    · rw [show ({ k with result := some .closed } : SrvConn).broken = k.broken from rfl, hI.notBroken hr] at hb
      cases hb
    · rw [show ({ k with result := some .closed } : SrvConn).broken = k.broken from rfl, hI.notBroken hr] at hb
      cases hb
  | @fail i k hc hk hr hrd =>
    have hI := hs.conns i k hk
    refine hs.set hk ⟨fun h => (by simp at h), ?_, fun hb => ?_, fun hb => ?_⟩ (by simp [hr]) _
    · intro e he _ t ht
      injection he with he
      rw [← he, hI.active hr t ht]
      exact handleRest_err (readNow_spec hrd ht)
    · rw [show ({ k with result := some .readError } : SrvConn).broken = k.broken from rfl, hI.notBroken hr] at hb
      cases hb
    · rfl

theorem serverStep_inv {s s' : ServerState} (hs : ServerInv s) (h : ServerStep s s') : ServerInv s' := by
  cases h with
  | accept _ _ => exact ⟨hs.conns, hs.future, hs.store, hs.crash, by simp⟩
  | spawn hc _ =>
    refine ⟨?_, ?_, hs.store, ?_, by simp⟩
    · intro i k hk
      simp only [List.getElem?_append] at hk
      split at hk
      · exact hs.conns i k hk
      · rename_i hi
        have hk0 : k = {} ∧ i = s.conns.length := by
          obtain ⟨h1, h2⟩ := List.getElem?_eq_some_iff.1 hk
          simp only [List.length_singleton] at h1
          refine ⟨?_, by omega⟩
          rw [← h2]
          simp
        have : s.callsFrom i = [] := by
          simp only [ServerState.callsFrom, List.map_eq_nil_iff, List.filter_eq_nil_iff, beq_iff_eq]
          intro c hc e
          have := hs.future c hc
          omega
        show ConnInv (s.callsFrom i) k
        rw [this, hk0.1]
        exact ConnInv.new
    · intro c hc
      have := hs.future c hc
      simp only [List.length_append, List.length_singleton]
      omega
    · show s.crashed = true ↔ _
      rw [hs.crash]
      constructor
      · rintro ⟨i, k, h1, h2⟩
        exact ⟨i, k, by simp only [List.getElem?_append, (List.getElem?_eq_some_iff.1 h1).1, if_true]; exact h1, h2⟩
      · rintro ⟨i, k, h1, h2⟩
        simp only [List.getElem?_append] at h1
        split at h1
        · exact ⟨i, k, h1, h2⟩
        · obtain ⟨h3, h4⟩ := List.getElem?_eq_some_iff.1 h1
          simp only [List.getElem_singleton] at h4
          rw [← h4] at h2
          cases h2
  | acceptErr _ _ => exact ⟨hs.conns, hs.future, hs.store, hs.crash, by simp⟩
  | again _ _ => exact ⟨hs.conns, hs.future, hs.store, hs.crash, by simp⟩
  | handler h => exact handlerStep_inv hs h
  | @arrive i k b hk he =>
    have hI := hs.conns i k hk
    refine hs.set (k' := { k with received := k.received ++ b, unread := k.unread ++ b }) hk
      ⟨?_, ?_, ?_, hI.brokenErr⟩ Iff.rfl s.logged
    · intro hr t _
      have := hI.active hr (b ++ t) (by rw [he]; simp)
      simpa [List.append_assoc] using this
    · intro e he' hb t _
      have := hI.over e he' hb (b ++ t) (by rw [he]; simp)
      simpa [List.append_assoc] using this
    · intro hb t _
      have := hI.broke hb (b ++ t) (by rw [he]; simp)
      simpa [List.append_assoc] using this
  | @finish i k hk =>
    have hI := hs.conns i k hk
    refine hs.set (k' := { k with ended := true }) hk ⟨?_, ?_, ?_, hI.brokenErr⟩ Iff.rfl s.logged
    · intro hr t ht
      exact hI.active hr t fun _ => ht rfl
    · intro e he' hb t ht
      exact hI.over e he' hb t fun _ => ht rfl
    · intro hb t ht
      exact hI.broke hb t fun _ => ht rfl
  | @broken i k hc hk hr =>
    have hI := hs.conns i k hk
    refine hs.set hk ⟨fun h => (by simp at h), fun e _ hb => (by simp at hb), ?_, fun _ => rfl⟩ (by simp [hr]) _
    intro _ t ht
    rw [hI.active hr t ht]
    exact handleRest_prefix _ _

theorem server_inv {s : ServerState} (h : ServerReachable s) : ServerInv s := by
  induction h with
  | init => exact .new
  | step _ hs ih => exact serverStep_inv ih hs

end Appdash
