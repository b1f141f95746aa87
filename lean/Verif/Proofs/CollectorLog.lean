import Verif.Spec.CollectorLog
import Verif.Proofs.AnnotationsText
import Verif.Proofs.Printf
import Verif.Proofs.Strconv
import Verif.Proofs.DashboardScript

/-! # Reading log messages (C165) -/

namespace Appdash
open Spec

/-- The first occurrence of a byte. -/
theorem log_first_byte {x : UInt8} {a b r s : Bytes} (ha : x ∉ a) (hb : x ∉ b) (e : a ++ x :: r = b ++ x :: s) : a = b ∧ r = s := by
  induction a generalizing b with
  | nil =>
    cases b with
    | nil => simpa using e
    | cons y b => simp at e hb; exact absurd e.1 hb.1
  | cons z a ih =>
    cases b with
    | nil => simp at e ha; exact absurd e.1.symm ha.1
    | cons y b =>
      simp only [List.cons_append, List.cons.injEq] at e
      simp only [List.mem_cons, not_or] at ha hb
      obtain ⟨h1, h2⟩ := ih ha.2 hb.2 e.2
      exact ⟨by rw [e.1, h1], h2⟩

theorem log_formatDec_inj {m n : Nat} (h : formatDec m = formatDec n) : m = n := by
  have h1 := parseDigits_formatDecAux (m + 1) m (by omega)
  have h2 := parseDigits_formatDecAux (n + 1) n (by omega)
  unfold formatDec at h
  rw [h, h2] at h1
  exact (Option.some.inj h1).symm

theorem log_spanText_inj {a b : SpanID} (h : a.toText = b.toText) : a = b := by
  have h1 := parseSpanID_toText a
  rw [h, parseSpanID_toText] at h1
  exact (Except.ok.inj h1).symm

theorem spanText_no_space (id : SpanID) : (32 : UInt8) ∉ id.toText := by
  intro h
  rcases spanText_byte id h with h | h
  · exact absurd h (by decide)
  · exact absurd h (by unfold IsLowerHex; decide)

theorem ptrDigits_no_colon : ∀ n u, (58 : UInt8) ∉ ptrDigits n u
  | 0, _ => by simp [ptrDigits]
  | n + 1, u => by
    have key : ∀ d, d < 16 → hexDigitChar d ≠ 58 := by decide
    rw [ptrDigits]
    split
    · simpa using (key u (by omega)).symm
    · simp only [List.mem_append, List.mem_singleton, not_or]
      exact ⟨ptrDigits_no_colon n _, (key _ (by omega)).symm⟩

theorem annotationMsg_inj {p q : Nat → Bool} {client : Bytes} {addr addr' i j : Nat} {a b : Annotation}
    (h : annotationMsg p client addr i a = annotationMsg q client addr' j b) : ShownAlike a b := by
  simp only [annotationMsg, pointerText, goQuote, List.append_assoc] at h
  have h := List.append_cancel_left (List.append_cancel_left (List.append_cancel_left (List.append_cancel_left h)))
  obtain ⟨-, h⟩ := log_first_byte (x := 58) (ptrDigits_no_colon _ _) (ptrDigits_no_colon _ _) h
  have h := List.append_cancel_left (as := b!" annotation ") h
  have nc : ∀ n, (58 : UInt8) ∉ formatDec n := fun n hc => absurd (formatDec_digits n _ hc) (by decide)
  obtain ⟨-, h⟩ := log_first_byte (x := 58) (nc i) (nc j) h
  have h := List.append_cancel_left (as := b!" ") h
  have l1 := goQuoteAux_literal p _ (a.value.getD []) (Nat.le_refl _)
  have l2 := goQuoteAux_literal q _ (b.value.getD []) (Nat.le_refl _)
  obtain ⟨h1, h2⟩ := line_split l1 l2 h
  rw [h2] at l1
  exact ⟨h1, literal_unique l1 _ l2⟩

theorem annotationMsgs_length (p : Nat → Bool) (client : Bytes) (addr : Nat) : ∀ i as, (annotationMsgs p client addr i as).length = as.length
  | _, [] => rfl
  | i, a :: as => by simp [annotationMsgs, annotationMsgs_length p client addr (i + 1) as]

theorem annotationMsgs_inj {p q : Nat → Bool} {client : Bytes} {addr addr' : Nat} : ∀ {as bs : List Annotation} {i j : Nat},
    annotationMsgs p client addr i as = annotationMsgs q client addr' j bs → List.Forall₂ ShownAlike as bs
  | [], [], _, _, _ => .nil
  | [], b :: bs, _, _, h => by simp [annotationMsgs] at h
  | a :: as, [], _, _, h => by simp [annotationMsgs] at h
  | a :: as, b :: bs, i, j, h => by
    simp only [annotationMsgs, List.cons.injEq] at h
    exact .cons (annotationMsg_inj h.1) (annotationMsgs_inj h.2)

theorem receivedMsg_inj {client : Bytes} {a b : SpanID} {m n : Nat} (h : receivedMsg client a m = receivedMsg client b n) : a = b ∧ m = n := by
  simp only [receivedMsg, List.append_assoc] at h
  have h := List.append_cancel_left (List.append_cancel_left (List.append_cancel_left h))
  obtain ⟨h1, h⟩ := log_first_byte (x := 32) (spanText_no_space a) (spanText_no_space b) h
  have h := List.append_cancel_left (as := b!"with ") h
  exact ⟨log_spanText_inj h1, log_formatDec_inj (List.append_cancel_right h)⟩

end Appdash
