import Verif.Spec.MixedClients
import Verif.Proofs.Distributed
import Verif.Properties.Python

/-!
# Lemmas about Go and Python processes that send to one server
-/

namespace Appdash
open Spec Py

theorem flatMap_msg (ps : List Packet) : ps.flatMap msg = sent (ps.map goCall) := by
  induction ps with
  | nil => rfl
  | cons p ps ih =>
    rw [List.flatMap_cons, ih, python_bytes]
    simp [sent]

theorem packets_of_sent {ds : List Delivery} (h : ∀ d ∈ ds, WithinLimit d) :
    packetsOf (sent ds) = ds ∧ (handleConn acceptAll (sent ds)).2 ≠ .panicked := by
  have := handleConn_shape ds h []
  rw [List.append_nil] at this
  unfold packetsOf
  rw [this]
  exact ⟨rfl, fun h => by cases h⟩

theorem client_streams {c : Client} (h : c.Done) :
    c.streams.flatMap packetsOf = c.collected ∧ ∀ b ∈ c.streams, (handleConn acceptAll b).2 ≠ .panicked := by
  cases c with
  | go c =>
    refine ⟨?_, ?_⟩
    · have := processDone_arrived (c := c) h
      simp only [Client.streams, List.flatMap_map]
      exact this
    · intro b hb
      obtain ⟨k, hk, rfl⟩ := List.mem_map.1 hb
      have := (server_never_mixes c (ProcessDone.reach h) (processDone_called h) k hk k.bytes.length acceptAll).2
      rw [List.take_length] at this
      exact this
  | socket ops =>
    obtain ⟨h1, h2⟩ := python_packets_received ops h.1 h.2
    refine ⟨?_, ?_⟩
    · simp only [Client.streams, List.flatMap_cons, List.flatMap_nil, List.append_nil]
      exact h1
    · intro b hb
      rw [List.mem_singleton.1 hb]
      rcases h2 with h2 | h2 <;> rw [h2] <;> exact fun h => by cases h
  | twisted ops =>
    obtain ⟨hn, hu, hp, hf⟩ := h
    have hcol := twisted_one_partial ops hn hu
    have h0 : TwOne (Tw.step {} .newFactory) {} := ⟨rfl, by simp [Tw.step], by simp [Tw.step], by simp, rfl⟩
    obtain ⟨F, hF⟩ := h0.run ops hn hu
    have hown : ∀ q ∈ (twEnd ops).protos, q.owner = 0 := hF.owner
    have hw : writtenBy (twEnd ops) 0 = (twEnd ops).protos.flatMap Proto.written := by
      unfold writtenBy
      rw [List.flatMap_def, List.flatMap_def]
      congr 1
      exact List.map_congr_left fun q hq => by rw [if_pos (hown q hq)]
    have hcol' : Py.collectedBy (twEnd ops) 0 = (twEnd ops).protos.flatMap Proto.written := by
      rw [← hw]
      have : Py.collectedBy (twEnd ops) 0 = writtenBy (twEnd ops) 0 ++ pendingOf (twEnd ops) 0 := hcol
      rw [this, hp, List.append_nil]
    have hlim : ∀ q ∈ (twEnd ops).protos, ∀ d ∈ q.written.map goCall, WithinLimit d := by
      intro q hq d hd
      obtain ⟨p, hp, rfl⟩ := List.mem_map.1 hd
      exact (fits_iff p).1 (hf p (by rw [hcol']; exact List.mem_flatMap.2 ⟨q, hq, hp⟩))
    refine ⟨?_, ?_⟩
    · simp only [Client.streams, Client.collected, List.flatMap_map, hcol', List.map_flatMap]
      rw [List.flatMap_def, List.flatMap_def]
      congr 1
      refine List.map_congr_left fun q hq => ?_
      rw [flatMap_msg]
      exact (packets_of_sent (hlim q hq)).1
    · intro b hb
      obtain ⟨q, hq, rfl⟩ := List.mem_map.1 hb
      rw [flatMap_msg]
      exact (packets_of_sent (hlim q hq)).2

theorem mixed_alive {s : ServerState} {clients : List Client} {t : ID} (h : MixedServerDone s clients t) (hd : ∀ c ∈ clients, c.Done) :
    s.crashed = false := by
  obtain ⟨others, hconn, hpan, -⟩ := h.conns
  cases hcr : s.crashed with
  | false => rfl
  | true =>
    exfalso
    obtain ⟨i, k, hk, hpk⟩ := server_crashes_only h.reach hcr
    have hm := hconn.subset (List.mem_map_of_mem (f := SrvConn.received) (List.mem_of_getElem? hk))
    rcases List.mem_append.1 hm with hm | hm
    · obtain ⟨c, hc, hm⟩ := List.mem_flatMap.1 hm
      exact (client_streams (hd c hc)).2 _ hm hpk
    · exact hpan _ hm hpk

theorem clients_packets {clients : List Client} (hd : ∀ c ∈ clients, c.Done) :
    (clients.flatMap Client.streams).flatMap packetsOf = clients.flatMap Client.collected := by
  rw [List.flatMap_assoc, List.flatMap_def, List.flatMap_def]
  congr 1
  exact List.map_congr_left fun c hc => (client_streams (hd c hc)).1

theorem mixed_live {s : ServerState} {clients : List Client} {t : ID} (h : MixedServerDone s clients t) (hd : ∀ c ∈ clients, c.Done) :
    (live t (s.calls.map fun c => StoreOp.collect c.2.1 c.2.2)).Perm (forTrace t (clients.flatMap Client.collected)) := by
  have hal := mixed_alive h hd
  obtain ⟨others, hconn, -, hoth⟩ := h.conns
  have hall : (s.calls.map Prod.snd).Perm ((clients.flatMap Client.collected) ++ others.flatMap packetsOf) := by
    have h1 := server_settled_complete h.reach h.settled hal h.unbroken
    have h2 := hconn.flatMap_right packetsOf
    rw [List.flatMap_append, List.flatMap_map, clients_packets hd] at h2
    exact h1.trans h2
  rw [server_live]
  refine (hall.filter _).trans ?_
  rw [List.filter_append]
  have h0 : (others.flatMap packetsOf).filter (fun e => decide (e.1.trace = t)) = [] := by
    rw [List.filter_eq_nil_iff]
    intro d hd
    obtain ⟨b, hb', hdb⟩ := List.mem_flatMap.1 hd
    simpa using hoth b hb' d hdb
  rw [h0, List.append_nil]
  exact .refl _

/-- The annotations of a span that one process collected over one connection. -/
theorem mixed_order {s : ServerState} {clients : List Client} {t : ID} (h : MixedServerDone s clients t) (hd : ∀ c ∈ clients, c.Done)
    {before after : List Client} {c : Client} (hcl : clients = before ++ c :: after) (h1 : c.streams.length ≤ 1) {id : SpanID} (ht : id.trace = t)
    (hno : ∀ c' ∈ before ++ after, id ∉ c'.collected.map Prod.fst) :
    Chunked.annotationsOf id (s.calls.map Prod.snd) = Chunked.annotationsOf id c.collected := by
  have hal := mixed_alive h hd
  obtain ⟨others, hconn, -, hoth⟩ := h.conns
  have hpk := hconn.map packetsOf
  rw [List.map_map, List.map_append] at hpk
  have hmiss : ∀ L ∈ ((before ++ after).flatMap Client.streams).map packetsOf ++ others.map packetsOf, id ∉ L.map Prod.fst := by
    intro L hL hm
    obtain ⟨d, hdL, e⟩ := List.mem_map.1 hm
    rcases List.mem_append.1 hL with hL | hL
    · obtain ⟨b, hb, rfl⟩ := List.mem_map.1 hL
      obtain ⟨c', hc', hb⟩ := List.mem_flatMap.1 hb
      refine hno c' hc' (List.mem_map.2 ⟨d, ?_, e⟩)
      have hc'' : c' ∈ clients := by
        rw [hcl]
        rcases List.mem_append.1 hc' with h | h
        · exact List.mem_append_left _ h
        · exact List.mem_append_right _ (List.mem_cons_of_mem _ h)
      rw [← (client_streams (hd c' hc'')).1]
      exact List.mem_flatMap.2 ⟨b, hb, hdL⟩
    · obtain ⟨b, hb, rfl⟩ := List.mem_map.1 hL
      exact hoth b hb d hdL (by rw [e, ht])
  have hperm : ((clients.flatMap Client.streams).map packetsOf ++ others.map packetsOf).Perm
      (c.streams.map packetsOf ++ (((before ++ after).flatMap Client.streams).map packetsOf ++ others.map packetsOf)) := by
    rw [hcl, ← List.append_assoc]
    refine List.Perm.append_right _ ?_
    simp only [List.flatMap_append, List.flatMap_cons, List.map_append]
    rw [← List.append_assoc, ← List.append_assoc]
    exact List.perm_append_comm.append_right _
  have hone : OneHas id (c.streams.map packetsOf ++ (((before ++ after).flatMap Client.streams).map packetsOf ++ others.map packetsOf)) := by
    refine List.pairwise_append.2 ⟨?_, ?_, fun a _ b hb => .inr (hmiss b hb)⟩
    · match hs : c.streams, h1 with
      | [], _ => exact .nil
      | [b], _ => exact List.pairwise_singleton _ _
    · refine List.pairwise_iff_forall_sublist.2 ?_
      intro a b hab
      exact .inl (hmiss a (hab.subset (by simp)))
  have hsym : ∀ {a b : List Delivery}, id ∉ a.map Prod.fst ∨ id ∉ b.map Prod.fst → id ∉ b.map Prod.fst ∨ id ∉ a.map Prod.fst :=
    fun h => h.symm
  have hall := hpk.trans hperm
  have hone' : OneHas id (s.conns.map (packetsOf ∘ SrvConn.received)) := (hall.pairwise_iff hsym).2 hone
  rw [annotationsOf_server h.reach h.settled hal h.unbroken hone']
  have h2 := annotationsOf_flatten_perm hall hone'
  have h3 : Chunked.annotationsOf id (s.conns.map fun k => packetsOf k.received).flatten =
      Chunked.annotationsOf id (s.conns.map (packetsOf ∘ SrvConn.received)).flatten := rfl
  rw [h3, h2, List.flatten_append, Chunked.annotationsOf_append]
  rw [annotationsOf_missing (L := (((before ++ after).flatMap Client.streams).map packetsOf ++ others.map packetsOf).flatten), List.append_nil]
  · rw [← List.flatMap_def, (client_streams (hd c (by rw [hcl]; simp))).1]
  · intro hm
    obtain ⟨d, hdm, e⟩ := List.mem_map.1 hm
    obtain ⟨L, hL, hdL⟩ := List.mem_flatten.1 hdm
    exact hmiss L hL (List.mem_map.2 ⟨d, hdL, e⟩)

end Appdash
