import Verif.Proofs.WireExtra
import Verif.Proofs.CollectorServer
import Verif.Proofs.WireGrammar

/-!
# C125: packets with fields that the server does not know
-/

namespace Appdash
open Spec

/-- **C125** (one packet).  The server reads a packet with new fields, at any place and of any kind, as it reads the packet without them. -/
theorem newer_packet_read (p : NewerPacket) (h : p.Good) (rest : Bytes) :
    readMsg (encVarint p.enc.length ++ p.enc ++ rest) = .ok (newCollectPacket p.known.1 p.known.2) rest := by
  have hlim := h.limit
  have hm : maxMessageSize = 1048576 := rfl
  have hne : encVarint p.enc.length ++ p.enc ++ rest ≠ [] := by simp [encVarint_ne_nil]
  have hr : readUvarint (encVarint p.enc.length ++ p.enc ++ rest) = .ok p.enc.length (p.enc ++ rest) := by
    rw [readUvarint, if_neg hne, List.append_assoc, decVarintLoop_enc 10 _ _ (by omega) (by omega)]
    simp only
    rw [if_neg (by omega)]
  rw [readMsg, hr]
  simp only [List.length_append]
  rw [if_neg (by omega), if_neg (by omega)]
  simp [unmarshal_newer h]

/-- **C125**.  All packets of a newer client are stored, without the new fields. -/
theorem newer_client_served (ps : List NewerPacket) (h : ∀ p ∈ ps, p.Good) :
    handleConn acceptAll (ps.flatMap fun p => encVarint p.enc.length ++ p.enc) = (ps.map NewerPacket.known, .closed) := by
  suffices hh : ∀ (acc : List Delivery), handleRest acc (ps.flatMap fun p => encVarint p.enc.length ++ p.enc) =
      (acc ++ ps.map NewerPacket.known, .closed) from hh []
  induction ps with
  | nil => intro acc; simp [handleRest, handleLoop, readMsg, readUvarint]
  | cons p ps ih =>
    intro acc
    have hp := newer_packet_read p (h p (List.mem_cons_self ..)) (ps.flatMap fun p => encVarint p.enc.length ++ p.enc)
    have := handleRest_ok (acc := acc) hp (id := p.known.1) (as := p.known.2) rfl (annotationsFromWire_wire _)
    rw [List.flatMap_cons, this, ih (fun q hq => h q (List.mem_cons_of_mem _ hq))]
    simp

theorem base128_loop : ∀ f n, n < f → Base128 (encVarintLoop f n) n
  | 0, n, h => by omega
  | f + 1, n, h => by
    rw [encVarintLoop]
    split
    · rename_i hn
      have := Base128.last (UInt8.ofNat n) (by rw [UInt8.toNat_ofNat']; omega)
      rwa [show (UInt8.ofNat n).toNat = n by rw [UInt8.toNat_ofNat']; omega] at this
    · rename_i hn
      have e : (UInt8.ofNat (n % 128 + 128)).toNat = n % 128 + 128 := by rw [UInt8.toNat_ofNat']; omega
      have := Base128.more (UInt8.ofNat (n % 128 + 128)) _ _ (by omega) (base128_loop f (n / 128) (by omega))
      rwa [e, show n % 128 + 128 - 128 + 128 * (n / 128) = n by omega] at this

/-- **C125** (the encoding).  Numbers are written in base 128 and the eight bytes of a number the low one first, and a field begins with
its number times eight plus the type. -/
theorem fields_written :
    (∀ n, Base128 (encVarint n) n) ∧ (∀ t w, Base128 (encTag t w) (8 * t + w)) ∧
      ∀ n : UInt64, leBytes 8 n.toNat = lowFirst 8 n.toNat :=
  ⟨fun n => base128_loop _ n (by omega), fun t w => base128_loop _ (8 * t + w) (by omega), fun n => leBytes_eq 8 _⟩

/-- **C125** (what is sent).  By the encoding of protocol buffers, a newer client's packet says what this version knows of it. -/
theorem newer_client_says (p : NewerPacket) (h : p.Good) :
    ∃ m, IsFrame (encVarint p.enc.length ++ p.enc) m ∧ Says m p.known.1 p.known.2 := by
  obtain ⟨f, m, hf, hfr, hs⟩ := (readMsg_says_iff (encVarint p.enc.length ++ p.enc ++ []) [] p.known.1 p.known.2).1
    ⟨_, newer_packet_read p h [], rfl, annotationsFromWire_wire _⟩
  rw [List.append_nil, List.append_nil] at hf
  exact ⟨m, hf ▸ hfr, hs⟩

/-- A packet with new fields of all kinds, groups in groups among them, in all places. -/
def newerPacket : NewerPacket :=
  { id := ⟨1, 2, 0⟩
    before := [.varint 8 300]
    first := []
    second := [.fixed64 9 7]
    third := [.group 5 [.group 5 [.bytes 1 b!"x"], .varint 3 0]]
    fourth := [.fixed32 10 1 2 3 4]
    after := [.group 9 [.group 9 []]]
    anns := [⟨⟨b!"Name", some b!"GET"⟩, [.bytes 1 b!"new"], [.varint 2 1], [.group 5 []], []⟩, ⟨⟨b!"k", none⟩, [], [], [], [.bytes 20 []]⟩] }

theorem newerPacket_good : newerPacket.Good := by
  refine ⟨?_, ?_, ?_, ?_, ?_, ?_, ?_, by decide +kernel⟩ <;>
    simp [newerPacket, NewFields, Unknown.wf, wfUnknowns, Unknown.tag]

example : newerPacket.known = (⟨1, 2, 0⟩, [⟨b!"Name", some b!"GET"⟩, ⟨b!"k", none⟩]) := rfl

end Appdash
