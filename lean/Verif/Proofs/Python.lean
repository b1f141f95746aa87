import Verif.Spec.Python
import Verif.Proofs.Server
import Verif.Proofs.Remote
import Verif.Proofs.Span

/-!
# Lemmas about the Python client: span IDs, encoding, the socket collector
-/

namespace Appdash.Py
open Spec

/-! ## Span IDs -/

theorem hexStr_numeral (i : ID) : IDNumeral (hexStr i) i.toNat := by
  have h := hexLoop_spec 15 i.toNat [] (by have := i.toNat_lt; omega) 0 rfl
  refine ⟨?_, ?_, i.toNat_lt⟩
  · intro e
    exact h.2.2 (List.append_eq_nil_iff.1 e).2
  · simp only [hexStr, formatHex, hexValue_pad]
    simpa using h.1

theorem parseSpanID_str (id : SpanID) : parseSpanID (str id) = .ok id := by
  have hp : ∀ i : ID, parseID (hexStr i) = .ok i := fun i => (parseID_ok _ _).2 (hexStr_numeral i)
  have hn : ∀ i : ID, spanIDDelimiter ∉ hexStr i := fun i => idNumeral_no_delim (hexStr_numeral i)
  have hd : (b!"/" : Bytes) = [spanIDDelimiter] := by decide
  unfold parseSpanID str
  by_cases h0 : id.parent = 0
  · have e : join b!"/" [hexStr id.trace, hexStr id.span] = hexStr id.trace ++ spanIDDelimiter :: hexStr id.span := by
      simp [join, hd]
    rw [if_pos h0, e, splitOn_append _ _ _ (hn _), splitOn_no_sep _ _ (hn _)]
    simp only [hp]
    rw [← h0]
  · have e : join b!"/" [hexStr id.trace, hexStr id.span, hexStr id.parent] =
        hexStr id.trace ++ spanIDDelimiter :: (hexStr id.span ++ spanIDDelimiter :: hexStr id.parent) := by
      simp [join, hd]
    rw [if_neg h0, e, splitOn_append _ _ _ (hn _), splitOn_append _ _ _ (hn _), splitOn_no_sep _ _ (hn _)]
    simp only [hp]

/-! ## Encoding -/

theorem or_bits {b : Nat} (h : b < 128) : 0x80 ||| b = b + 128 := by
  have := Nat.two_pow_add_eq_or_of_lt (i := 7) (b := b) h 1
  simp at this
  omega

theorem varintLoop_eq (f : Nat) : ∀ n, n / 128 ≤ f → varintLoop f (n % 128) (n / 128) = encVarint n := by
  induction f with
  | zero =>
    intro n h
    have : n < 128 := by omega
    rw [encVarint_small this, varintLoop, Nat.mod_eq_of_lt this]
  | succ f ih =>
    intro n h
    rw [varintLoop]
    split
    · have : n < 128 := by omega
      rw [encVarint_small this, Nat.mod_eq_of_lt this]
    · rw [encVarint_big (by omega), or_bits (Nat.mod_lt _ (by omega))]
      have e1 : n / 128 &&& 0x7f = n / 128 % 128 := Nat.and_two_pow_sub_one_eq_mod (n / 128) 7
      have e2 : (n / 128) >>> 7 = n / 128 / 128 := Nat.shiftRight_eq_div_pow (n / 128) 7
      rw [e1, e2, ih (n / 128) (by omega)]

theorem varint_eq (n : Nat) : varint n = encVarint n := by
  have e1 : n &&& 0x7f = n % 128 := Nat.and_two_pow_sub_one_eq_mod n 7
  have e2 : n >>> 7 = n / 128 := Nat.shiftRight_eq_div_pow n 7
  rw [varint, e1, e2]
  exact varintLoop_eq n n (by omega)

theorem serialize_eq (p : Packet) : serialize p = marshal (newCollectPacket (goCall p).1 (goCall p).2) := by
  have t : ∀ f w : Nat, w < 8 → tag f w = encTag f w := by
    intro f w h
    have : (f <<< 3) ||| w = 8 * f + w := by
      have := Nat.two_pow_add_eq_or_of_lt (i := 3) (b := w) h f
      rw [Nat.shiftLeft_eq, Nat.mul_comm f, ← this]
    rw [tag, varint_eq, this, encTag]
  have ha : ∀ a : Ann, annGroup a = encAnnotation { key := some a.key, value := some a.value } := by
    intro a
    simp only [annGroup, encAnnotation, bytesField, encOpt, encBytes, t _ _ (show 3 < 8 by omega), t _ _ (show 4 < 8 by omega),
      t _ _ (show 2 < 8 by omega), varint_eq]
  simp only [serialize, fixed64, t _ _ (show 3 < 8 by omega), t _ _ (show 4 < 8 by omega), t _ _ (show 1 < 8 by omega), marshal,
    newCollectPacket, SpanID.wire, encOpt, encSpanID, encFixed64, goCall, annotationsWire, List.map_map]
  congr 1
  induction p.2 with
  | nil => rfl
  | cons a l ih => simp only [List.flatMap_cons, List.map_cons, ih, ha]; rfl

theorem msg_eq (p : Packet) : msg p = frameOf (goCall p) := by
  rw [msg, varint_eq, serialize_eq]
  rfl

theorem fits_iff (p : Packet) : Fits p ↔ WithinLimit (goCall p) := by
  rw [Fits, serialize_eq]
  rfl

theorem msg_ne_nil (p : Packet) : msg p ≠ [] := by
  rw [msg, varint_eq]
  intro h
  exact encVarint_ne_nil _ (List.append_eq_nil_iff.1 h).1

/-! ## The socket collector -/

/-- Invariant of an orderly execution. -/
structure SI (s : Sock) (part : Bytes) : Prop where
  stream : s.stream = sent ((returned s).map goCall) ++ part
  buf : ∀ t c, s.active t = some c → c.buf = msg c.packet ∧ c.totalSent < c.buf.length
  part : (part = [] ∧ (∀ t c, s.active t = some c → c.totalSent = 0) ∧ ∀ p k, (p, Outcome.raised k) ∈ s.log → k = 0) ∨
    (∃ t c, s.active t = some c ∧ part = c.buf.take c.totalSent ∧ 0 < c.totalSent ∧ Quiet s t) ∨
    (∃ p k, (p, Outcome.raised k) ∈ s.log ∧ part = (msg p).take k ∧ 0 < k ∧ k < (msg p).length)

theorem returned_snoc_raised (s : List (Packet × Outcome)) (p : Packet) (k : Nat) :
    (s ++ [(p, Outcome.raised k)]).filterMap (fun e => match e.2 with | .returned => some e.1 | .raised _ => none) =
      s.filterMap fun e => match e.2 with | .returned => some e.1 | .raised _ => none := by
  simp

theorem sent_snoc (ds : List Delivery) (d : Delivery) : sent (ds ++ [d]) = sent ds ++ frameOf d := by
  simp [sent]

theorem SI.fail {s : Sock} {part : Bytes} (h : SI s part) {t : Nat} {c : Call} (hc : s.active t = some c) :
    ∃ part', SI { s with active := fun u => if u = t then none else s.active u, log := s.log ++ [(c.packet, .raised c.totalSent)] }
      part' := by
  obtain ⟨h1, h2, h3⟩ := h
  refine ⟨part, ⟨by simpa [returned] using h1, ?_, ?_⟩⟩
  · intro u c' hu
    simp only at hu
    split at hu
    · cases hu
    · exact h2 u c' hu
  · rcases h3 with ⟨rfl, ha, hl⟩ | ⟨t', c', ht, rfl, hk, hq⟩ | ⟨p, k, hp, rfl, hk⟩
    · left
      refine ⟨rfl, ?_, ?_⟩
      · intro u c' hu
        simp only at hu
        split at hu
        · cases hu
        · exact ha u c' hu
      · intro p k hpk
        simp only [List.mem_append, List.mem_singleton, Prod.mk.injEq, Outcome.raised.injEq] at hpk
        rcases hpk with h | ⟨-, rfl⟩
        · exact hl p k h
        · exact ha t c hc
    · by_cases e : t' = t
      · subst e
        rw [hc] at ht
        cases ht
        right; right
        refine ⟨c.packet, c.totalSent, by simp, ?_, hk, ?_⟩
        · rw [← (h2 _ _ hc).1]
        · rw [← (h2 _ _ hc).1]; exact (h2 _ _ hc).2
      · right; left
        refine ⟨t', c', by simp [e, ht], rfl, hk, ?_, ?_⟩
        · intro u c'' hu hu2
          simp only at hu2
          split at hu2
          · cases hu2
          · exact hq.1 u c'' hu hu2
        · intro p k hpk
          simp only [List.mem_append, List.mem_singleton, Prod.mk.injEq, Outcome.raised.injEq] at hpk
          rcases hpk with h | ⟨-, rfl⟩
          · exact hq.2 p k h
          · exact hq.1 t c (Ne.symm e) hc
    · right; right
      exact ⟨p, k, by simp [hp], rfl, hk⟩

theorem SI.step {s : Sock} {part : Bytes} (h : SI s part) (op : SockOp) (ho : ∀ t n, op = .send t n → Quiet s t) :
    ∃ part', SI (s.step op) part' := by
  cases op with
  | error t =>
    cases hc : s.active t with
    | none => simp only [Sock.step, hc]; exact ⟨part, h⟩
    | some c => simp only [Sock.step, hc]; exact h.fail hc
  | collect t p =>
    cases hc : s.active t with
    | some c => simp only [Sock.step, hc]; exact ⟨part, h⟩
    | none =>
      simp only [Sock.step, hc]
      obtain ⟨h1, h2, h3⟩ := h
      refine ⟨part, ⟨h1, ?_, ?_⟩⟩
      · intro u c hu
        simp only at hu
        split at hu
        · cases hu
          exact ⟨rfl, List.length_pos_iff.2 (msg_ne_nil p)⟩
        · exact h2 u c hu
      · rcases h3 with ⟨rfl, ha, hl⟩ | ⟨t', c', ht, rfl, hk, hq⟩ | h3
        · left
          refine ⟨rfl, ?_, hl⟩
          intro u c hu
          simp only at hu
          split at hu
          · cases hu; rfl
          · exact ha u c hu
        · right; left
          have e : t' ≠ t := by rintro rfl; rw [hc] at ht; cases ht
          refine ⟨t', c', by simp [e, ht], rfl, hk, ?_, hq.2⟩
          intro u c hu hu2
          simp only at hu2
          split at hu2
          · cases hu2; rfl
          · exact hq.1 u c hu hu2
        · exact .inr (.inr h3)
  | send t n =>
    have hq := ho t n rfl
    cases hc : s.active t with
    | none => simp only [Sock.step, hc]; exact ⟨part, h⟩
    | some c =>
      simp only [Sock.step, hc]
      split
      · exact h.fail hc
      · rename_i hn
        obtain ⟨h1, h2, h3⟩ := h
        obtain ⟨hb, hlt⟩ := h2 t c hc
        have hpart : part = c.buf.take c.totalSent := by
          rcases h3 with ⟨rfl, ha, hl⟩ | ⟨t', c', ht, rfl, hk, hq'⟩ | ⟨p, k, hp, rfl, hk⟩
          · rw [ha t c hc]; rfl
          · by_cases e : t' = t
            · subst e; rw [hc] at ht; cases ht; rfl
            · have := hq.1 t' c' e ht; omega
          · have := hq.2 p k hp; omega
        have hcat : ∀ k, c.buf.take c.totalSent ++ (c.buf.drop c.totalSent).take k = c.buf.take (c.totalSent + k) := by
          intro k; rw [List.take_add]
        have hl : (c.buf.drop c.totalSent).length = c.buf.length - c.totalSent := List.length_drop
        split
        · rename_i hlt2
          refine ⟨c.buf.take (c.totalSent + min n (c.buf.drop c.totalSent).length), ⟨?_, ?_, ?_⟩⟩
          · show s.stream ++ _ = sent ((returned s).map goCall) ++ _
            rw [h1, hpart, List.append_assoc, hcat]
          · intro u c' hu
            simp only at hu
            split at hu
            · cases hu; exact ⟨hb, hlt2⟩
            · exact h2 u c' hu
          · right; left
            refine ⟨t, { c with totalSent := c.totalSent + min n (c.buf.drop c.totalSent).length }, by simp, rfl,
              (show 0 < c.totalSent + _ by omega), ?_, hq.2⟩
            intro u c' hu hu2
            simp only [hu, if_false] at hu2
            exact hq.1 u c' hu hu2
        · rename_i hge
          refine ⟨[], ⟨?_, ?_, ?_⟩⟩
          · show s.stream ++ _ = sent ((returned _).map goCall) ++ []
            have e : returned { s with stream := s.stream ++ (c.buf.drop c.totalSent).take (min n (c.buf.drop c.totalSent).length), active := fun u => if u = t then none else s.active u, log := s.log ++ [(c.packet, Outcome.returned)] } =
                returned s ++ [c.packet] := by simp [returned]
            rw [e, h1, hpart, List.append_assoc, hcat, List.map_append, List.map_singleton, sent_snoc, List.append_nil,
              ← msg_eq, ← hb, List.take_of_length_le (by omega)]
          · intro u c' hu
            simp only at hu
            split at hu
            · cases hu
            · exact h2 u c' hu
          · left
            refine ⟨rfl, ?_, ?_⟩
            · intro u c' hu
              simp only at hu
              split at hu
              · cases hu
              · rename_i e; exact hq.1 u c' e hu
            · intro p k hpk
              simp only [List.mem_append, List.mem_singleton, Prod.mk.injEq, reduceCtorEq, and_false, or_false] at hpk
              exact hq.2 p k hpk

theorem SI.run {s : Sock} {part : Bytes} (h : SI s part) (ops : List SockOp) (ho : Orderly s ops) :
    ∃ part', SI (s.run ops) part' := by
  induction ops generalizing s part with
  | nil => exact ⟨part, h⟩
  | cons op ops ih =>
    obtain ⟨h1, h2⟩ := ho
    obtain ⟨part', h'⟩ := h.step op h1
    exact ih h' h2

theorem SI.init : SI {} [] := ⟨rfl, by simp, .inl ⟨rfl, by simp, by simp⟩⟩

/-- The packets in the state were passed to `collect`. -/
theorem step_packets {s : Sock} {P : Packet → Prop} (op : SockOp) (ho : ∀ t p, op = .collect t p → P p)
    (h1 : ∀ t c, s.active t = some c → P c.packet) (h2 : ∀ e ∈ s.log, P e.1) :
    (∀ t c, (s.step op).active t = some c → P c.packet) ∧ ∀ e ∈ (s.step op).log, P e.1 := by
  have fail : ∀ t c (o : Outcome), s.active t = some c →
      (∀ u c', (if u = t then none else s.active u) = some c' → P c'.packet) ∧ ∀ e ∈ s.log ++ [(c.packet, o)], P e.1 := by
    intro t c o hc
    refine ⟨?_, ?_⟩
    · intro u c' hu
      split at hu
      · cases hu
      · exact h1 u c' hu
    · intro e he
      rcases List.mem_append.1 he with he | he
      · exact h2 e he
      · rw [List.mem_singleton] at he; subst he; exact h1 t c hc
  cases op with
  | error t =>
    cases hc : s.active t with
    | none => simp only [Sock.step, hc]; exact ⟨h1, h2⟩
    | some c => simp only [Sock.step, hc]; exact fail t c _ hc
  | collect t p =>
    cases hc : s.active t with
    | some c => simp only [Sock.step, hc]; exact ⟨h1, h2⟩
    | none =>
      simp only [Sock.step, hc]
      refine ⟨?_, h2⟩
      intro u c hu
      split at hu
      · cases hu; exact ho t p rfl
      · exact h1 u c hu
  | send t n =>
    cases hc : s.active t with
    | none => simp only [Sock.step, hc]; exact ⟨h1, h2⟩
    | some c =>
      simp only [Sock.step, hc]
      split
      · exact fail t c _ hc
      · split
        · refine ⟨?_, h2⟩
          intro u c' hu
          simp only at hu
          split at hu
          · cases hu; exact h1 t c hc
          · exact h1 u c' hu
        · exact fail t c _ hc

theorem run_packets {s : Sock} {P : Packet → Prop} (ops : List SockOp) (ho : ∀ t p, SockOp.collect t p ∈ ops → P p)
    (h1 : ∀ t c, s.active t = some c → P c.packet) (h2 : ∀ e ∈ s.log, P e.1) :
    (∀ t c, (s.run ops).active t = some c → P c.packet) ∧ ∀ e ∈ (s.run ops).log, P e.1 := by
  induction ops generalizing s with
  | nil => exact ⟨h1, h2⟩
  | cons op ops ih =>
    have := step_packets (P := P) op (fun t p e => ho t p (by simp [e])) h1 h2
    exact ih (fun t p hm => ho t p (List.mem_cons_of_mem _ hm)) this.1 this.2

theorem returned_mem {s : Sock} {p : Packet} (h : p ∈ returned s) : (p, Outcome.returned) ∈ s.log := by
  obtain ⟨⟨q, o⟩, h1, h2⟩ := List.mem_filterMap.1 h
  cases o with
  | returned => simp only [Option.some.injEq] at h2; exact h2 ▸ h1
  | raised k => simp at h2

theorem handleLoop_prefix (f : Nat) : ∀ (acc : List Delivery) (s : Bytes), acc <+: (handleLoop acceptAll f acc s).1 := by
  induction f with
  | zero => intro acc s; exact List.prefix_rfl
  | succ f ih =>
    intro acc s
    rw [handleLoop]
    split
    · exact List.prefix_rfl
    · exact List.prefix_rfl
    · split
      · exact List.prefix_rfl
      · split
        · exact List.prefix_rfl
        · split
          · exact List.prefix_append ..
          · exact (List.prefix_append ..).trans (ih _ _)

theorem step_stream (s : Sock) (op : SockOp) : ∃ x, (s.step op).stream = s.stream ++ x := by
  cases op with
  | error t => simp only [Sock.step]; split <;> exact ⟨[], by simp⟩
  | collect t p => simp only [Sock.step]; split <;> exact ⟨[], by simp⟩
  | send t n =>
    simp only [Sock.step]
    split
    · exact ⟨[], by simp⟩
    · split
      · exact ⟨[], by simp⟩
      · split
        · exact ⟨_, rfl⟩
        · exact ⟨_, rfl⟩

theorem run_stream (s : Sock) (ops : List SockOp) : ∃ x, (s.run ops).stream = s.stream ++ x := by
  induction ops generalizing s with
  | nil => exact ⟨[], by simp [Sock.run]⟩
  | cons op ops ih =>
    obtain ⟨x, hx⟩ := step_stream s op
    obtain ⟨y, hy⟩ := ih (s.step op)
    exact ⟨x ++ y, by rw [Sock.run, hy, hx, List.append_assoc]⟩

theorem run_append (s : Sock) (a b : List SockOp) : s.run (a ++ b) = (s.run a).run b := by
  induction a generalizing s with
  | nil => rfl
  | cons op a ih => exact ih _

/-- A program with one thread whose sends do not fail is orderly. -/
theorem orderly_one_thread (t : Nat) (ops : List SockOp) (ht : ∀ op ∈ ops, op.thread = t) (hf : ∀ op ∈ ops, op.fails = false)
    (s : Sock) (h1 : ∀ u, u ≠ t → s.active u = none) (h2 : ∀ p k, (p, Outcome.raised k) ∉ s.log)
    (h3 : ∀ u c, s.active u = some c → c.totalSent < c.buf.length) : Orderly s ops := by
  induction ops generalizing s with
  | nil => trivial
  | cons op ops ih =>
    have hop := ht op (List.mem_cons_self ..)
    have hfo := hf op (List.mem_cons_self ..)
    refine ⟨?_, ih (fun o ho => ht o (List.mem_cons_of_mem _ ho)) (fun o ho => hf o (List.mem_cons_of_mem _ ho)) _ ?_ ?_ ?_⟩
    · rintro u n rfl
      have hop' : u = t := hop
      subst hop'
      exact ⟨fun v c hv hc => (by rw [h1 v hv] at hc; cases hc), fun p k hk => absurd hk (h2 p k)⟩
    all_goals
      cases op with
      | error u => simp [SockOp.fails] at hfo
      | collect u p =>
        have hop' : u = t := hop
        subst hop'
        cases hc : s.active u with
        | some c => simp only [Sock.step, hc]; assumption
        | none =>
          simp only [Sock.step, hc]
          first
          | (intro (v : Nat) (hv : v ≠ u); simp [hv, h1 v hv])
          | exact h2
          | intro v c hv
            try simp only at hv
            split at hv
            · cases hv; exact List.length_pos_iff.2 (msg_ne_nil p)
            · exact h3 v c hv
      | send u n =>
        have hop' : u = t := hop
        subst hop'
        cases hc : s.active u with
        | none => simp only [Sock.step, hc]; assumption
        | some c =>
          simp only [Sock.step, hc]
          have hn : ¬ min n (c.buf.drop c.totalSent).length = 0 := by
            have := h3 u c hc
            have hn0 : n ≠ 0 := by rintro rfl; simp [SockOp.fails] at hfo
            rw [List.length_drop]; omega
          simp only [hn, if_false]
          split
          · first
            | (intro (v : Nat) (hv : v ≠ u); simp [hv, h1 v hv])
            | exact h2
            | intro v c' hv
              try simp only at hv
              split at hv
              · cases hv; assumption
              · exact h3 v c' hv
          · first
            | (intro (v : Nat) (hv : v ≠ u); simp [hv, h1 v hv])
            | (intro (p : Packet) (k : Nat) hk; simp [h2 p k] at hk)
            | intro v c' hv
              try simp only at hv
              split at hv
              · cases hv
              · exact h3 v c' hv

/-- If every send takes a whole packet, any number of threads is orderly. -/
theorem orderly_whole (ops : List SockOp) (L : Nat) (hc : ∀ t p, SockOp.collect t p ∈ ops → (msg p).length ≤ L)
    (hs : ∀ t n, SockOp.send t n ∈ ops → L ≤ n) (s : Sock)
    (h1 : ∀ u c, s.active u = some c → c.totalSent = 0 ∧ c.buf.length ≤ L ∧ c.buf ≠ []) (h2 : ∀ p k, (p, Outcome.raised k) ∈ s.log → k = 0) :
    Orderly s ops := by
  induction ops generalizing s with
  | nil => trivial
  | cons op ops ih =>
    refine ⟨fun t n _ => ⟨fun u c _ hu => (h1 u c hu).1, h2⟩, ih (fun t p h => hc t p (List.mem_cons_of_mem _ h))
      (fun t n h => hs t n (List.mem_cons_of_mem _ h)) _ ?_ ?_⟩
    all_goals
      cases op with
      | error u =>
        cases hu : s.active u with
        | none => simp only [Sock.step, hu]; assumption
        | some c =>
          simp only [Sock.step, hu]
          first
          | intro v c' hv
            try simp only at hv
            split at hv
            · cases hv
            · exact h1 v c' hv
          | intro p k hk
            simp only [List.mem_append, List.mem_singleton, Prod.mk.injEq, Outcome.raised.injEq] at hk
            rcases hk with hk | ⟨-, rfl⟩
            · exact h2 p k hk
            · exact (h1 u c hu).1
      | collect u p =>
        cases hu : s.active u with
        | some c => simp only [Sock.step, hu]; assumption
        | none =>
          simp only [Sock.step, hu]
          first
          | exact h2
          | intro v c' hv
            try simp only at hv
            split at hv
            · cases hv; exact ⟨rfl, hc u p (List.mem_cons_self ..), msg_ne_nil p⟩
            · exact h1 v c' hv
      | send u n =>
        cases hu : s.active u with
        | none => simp only [Sock.step, hu]; assumption
        | some c =>
          simp only [Sock.step, hu]
          obtain ⟨q1, q2, q3⟩ := h1 u c hu
          have hn := hs u n (List.mem_cons_self ..)
          have hpos : 0 < c.buf.length := List.length_pos_iff.2 q3
          have e : min n (c.buf.drop c.totalSent).length = c.buf.length := by rw [List.length_drop]; omega
          simp only [e, show ¬ c.buf.length = 0 by omega, if_false, show ¬ c.totalSent + c.buf.length < c.buf.length by omega]
          first
          | intro v c' hv
            split at hv
            · cases hv
            · exact h1 v c' hv
          | intro p k hk
            simp only [List.mem_append, List.mem_singleton, Prod.mk.injEq, reduceCtorEq, and_false, or_false] at hk
            exact h2 p k hk

end Appdash.Py
