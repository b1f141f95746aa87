import Verif.Proofs.WireGrammar
import Verif.Properties.Wire

/-!
# C126: the collector server takes from a connection what its bytes say, and nothing else
-/

namespace Appdash
open Spec

/-- A message says at most one thing. -/
theorem says_unique {m : Bytes} {id id' : SpanID} {as as' : List Annotation} (h : Says m id as) (h' : Says m id' as') : id = id' ∧ as = as' := by
  obtain ⟨p, hp, hid, has⟩ := (unmarshal_iff _ _ _).2 h
  obtain ⟨p', hp', hid', has'⟩ := (unmarshal_iff _ _ _).2 h'
  rw [hp] at hp'
  obtain rfl := Option.some.inj hp'
  rw [hid] at hid'
  rw [has] at has'
  exact ⟨Option.some.inj hid', Option.some.inj has'⟩

theorem isFrame_length {f m : Bytes} (h : IsFrame f m) : 0 < f.length := by
  obtain ⟨k, hf, _, hb, _⟩ := h
  have := base128_length hb
  simp [hf]; omega

theorem handleLoop_grammar (rejects : List Delivery → Delivery → Bool) (f : Nat) (acc : List Delivery) (s : Bytes) (hf : s.length < f) :
    ∃ (parts : List (Bytes × Delivery)) (rest : Bytes), s = (parts.map Prod.fst).flatten ++ rest ∧
      (handleLoop rejects f acc s).1 = acc ++ parts.map Prod.snd ∧ (∀ p ∈ parts, ∃ m, IsFrame p.1 m ∧ Says m p.2.1 p.2.2) ∧
      ((handleLoop rejects f acc s).2 ≠ .collectError → ∀ x m id as, x <+: rest → IsFrame x m → ¬ Says m id as) := by
  induction f generalizing acc s with
  | zero => omega
  | succ f ih =>
    have stop : (∀ p rest id as, readMsg s = .ok p rest → spanIDFromWire p.spanid = some id → annotationsFromWire p.annotation = some as → False) →
        ∀ x m id as, x <+: s → IsFrame x m → ¬ Says m id as := by
      rintro hn x m id as ⟨rest, hx⟩ hfr hs
      obtain ⟨p, h1, h2, h3⟩ := (readMsg_says_iff s rest id as).2 ⟨x, m, hx.symm, hfr, hs⟩
      exact hn p rest id as h1 h2 h3
    rw [handleLoop]
    split
    · next hr => exact ⟨[], s, by simp, by simp, by simp, fun _ => stop fun p rest id as h => by simp [hr] at h⟩
    · next hr => exact ⟨[], s, by simp, by simp, by simp, fun _ => stop fun p rest id as h => by simp [hr] at h⟩
    · next p rest hr =>
      split
      · next hid =>
        exact ⟨[], s, by simp, by simp, by simp, fun _ => stop fun p' rest' id as h h2 h3 => by
          rw [hr] at h; simp only [ReadRes.ok.injEq] at h; rw [← h.1, hid] at h2; simp at h2⟩
      · next id hid =>
        split
        · next has =>
          exact ⟨[], s, by simp, by simp, by simp, fun _ => stop fun p' rest' id as h h2 h3 => by
            rw [hr] at h; simp only [ReadRes.ok.injEq] at h; rw [← h.1, has] at h3; simp at h3⟩
        · next as has =>
          obtain ⟨x, m, hx, hfr, hs⟩ := (readMsg_says_iff s rest id as).1 ⟨p, hr, hid, has⟩
          split
          · exact ⟨[(x, (id, as))], rest, by simp [hx], by simp, by simpa using ⟨m, hfr, hs⟩, fun h => by simp at h⟩
          · have hl := isFrame_length hfr
            obtain ⟨parts, rest', h1, h2, h3, h4⟩ := ih (acc ++ [(id, as)]) rest (by rw [hx] at hf; simp at hf; omega)
            refine ⟨(x, (id, as)) :: parts, rest', by simp [hx, h1], by simp [h2], ?_, h4⟩
            intro q hq
            rcases List.mem_cons.1 hq with rfl | hq
            · exact ⟨m, hfr, hs⟩
            · exact h3 q hq

/-- **C126**.  Whatever bytes a connection delivers, the server's collector receives what the messages at the beginning of these bytes say, one
call for each, in their order, and nothing else; and unless the collector returns an error the server goes on to the first bytes that are no such
message. -/
theorem server_takes_what_is_said (rejects : List Delivery → Delivery → Bool) (s : Bytes) :
    ∃ (parts : List (Bytes × Delivery)) (rest : Bytes), s = (parts.map Prod.fst).flatten ++ rest ∧
      (handleConn rejects s).1 = parts.map Prod.snd ∧ (∀ p ∈ parts, ∃ m, IsFrame p.1 m ∧ Says m p.2.1 p.2.2) ∧
      ((handleConn rejects s).2 ≠ .collectError → ∀ x m id as, x <+: rest → IsFrame x m → ¬ Says m id as) := by
  simpa [handleConn] using handleLoop_grammar rejects (s.length + 1) [] s (by omega)

/-- **C126** (everything that is said is taken).  If the bytes are messages that say something, one after another, then the server's collector
receives all of it, and the connection ends without an error. -/
theorem server_takes_all_that_is_said (parts : List (Bytes × Delivery)) (h : ∀ p ∈ parts, ∃ m, IsFrame p.1 m ∧ Says m p.2.1 p.2.2) :
    handleConn acceptAll (parts.map Prod.fst).flatten = (parts.map Prod.snd, .closed) := by
  suffices hh : ∀ (f : Nat) (acc : List Delivery), (parts.map Prod.fst).flatten.length < f →
      handleLoop acceptAll f acc (parts.map Prod.fst).flatten = (acc ++ parts.map Prod.snd, .closed) from
    hh _ [] (by omega)
  induction parts with
  | nil =>
    intro f acc hf
    obtain ⟨f, rfl⟩ : ∃ g, f = g + 1 := ⟨f - 1, by simp at hf; omega⟩
    simp [handleLoop, readMsg, readUvarint]
  | cons p parts ih =>
    intro f acc hf
    obtain ⟨f, rfl⟩ : ∃ g, f = g + 1 := ⟨f - 1, by omega⟩
    obtain ⟨m, hfr, hs⟩ := h p (List.mem_cons_self ..)
    have hl := isFrame_length hfr
    obtain ⟨q, h1, h2, h3⟩ := (readMsg_says_iff _ (parts.map Prod.fst).flatten p.2.1 p.2.2).2 ⟨p.1, m, rfl, hfr, hs⟩
    rw [List.map_cons, List.flatten_cons, handleLoop, h1]
    simp only [h2, h3]
    rw [show acceptAll acc (p.2.1, p.2.2) = false from rfl, if_neg (by simp),
      ih (fun q hq => h q (List.mem_cons_of_mem _ hq)) f _ (by simp at hf ⊢; omega)]
    simp

/-- **C126** (what clients send).  The bytes that a RemoteCollector sends for a packet within the limit are a message that says just what was
given to Collect. -/
theorem clients_say (d : Delivery) (h : WithinLimit d) : ∃ m, IsFrame (frameOf d) m ∧ Says m d.1 d.2 := by
  obtain ⟨f, m, hf, hfr, hs⟩ := (readMsg_says_iff (frameOf d ++ []) [] d.1 d.2).1
    ⟨_, readMsg_frame d.1 d.2 [] h (fitsInt_of_limit d (by unfold WithinLimit at h; omega)), rfl, annotationsFromWire_wire d.2⟩
  rw [List.append_nil, List.append_nil] at hf
  exact ⟨m, hf ▸ hfr, hs⟩

theorem lastGiven_mem {α β : Type} {f : α → Option β} {l : List α} {b : β} (h : lastGiven f l = some b) : ∃ a ∈ l, f a = some b := by
  have := List.mem_of_getLast? h
  simpa using this

theorem annotationPieces_infix {e : Bytes → Prop} {s : Bytes} {ps : List AnnotationPiece} (h : AreFields IsAnnotationPiece e s ps) :
    ∀ p ∈ ps, ∀ b, p.key? = some b ∨ p.value? = some b → b <:+: s := by
  induction h with
  | done => simp
  | field k s r u x xs _ _ _ hx _ ih =>
    intro p hp b hb
    rcases List.mem_cons.1 hp with rfl | hp
    · have : b <:+: s := by
        generalize hn : u / 8 = n at hx
        generalize hw : u % 8 = w at hx
        cases hx with
        | key _ _ b' _ hs =>
          obtain ⟨k, hk, _⟩ := hs
          simp only [AnnotationPiece.key?, AnnotationPiece.value?, Option.some.injEq, reduceCtorEq, or_false] at hb
          exact hb ▸ ⟨k, [], by simp [hk]⟩
        | value _ _ b' _ hs =>
          obtain ⟨k, hk, _⟩ := hs
          simp only [AnnotationPiece.key?, AnnotationPiece.value?, Option.some.injEq, reduceCtorEq, false_or] at hb
          exact hb ▸ ⟨k, [], by simp [hk]⟩
        | other => simp [AnnotationPiece.key?, AnnotationPiece.value?] at hb
      exact this.trans ⟨k, r, rfl⟩
    · exact (ih p hp b hb).trans ⟨k ++ s, [], by simp⟩

/-- **C126** (nothing is made up).  Every key and value that a message says is a contiguous part of the message. -/
theorem said_is_in_message {m : Bytes} {id : SpanID} {as : List Annotation} (h : Says m id as) :
    ∀ a ∈ as, a.key <:+: m ∧ ∀ v, a.value = some v → v <:+: m := by
  obtain ⟨ps, hps, h1, h2, h3, rfl⟩ := h
  clear h1 h2 h3
  have hk := packet_keys hps
  have key : ∀ l ∈ annotationGroups ps, ∃ s, s <:+: m ∧ AreFields IsAnnotationPiece IsGroupEnd s l := by
    clear hk
    induction hps with
    | done => simp [annotationGroups]
    | field k s r u x xs _ _ _ hx _ ih =>
      intro l hl
      rw [annotationGroups, List.filterMap_cons] at hl
      have tail : ∀ l ∈ annotationGroups xs, ∃ t, t <:+: k ++ s ++ r ∧ AreFields IsAnnotationPiece IsGroupEnd t l := fun l hl => by
        obtain ⟨t, ht, hf⟩ := ih l hl
        exact ⟨t, ht.trans ⟨k ++ s, [], by simp⟩, hf⟩
      generalize hn : u / 8 = n at hx
      generalize hw : u % 8 = w at hx
      cases hx with
      | spanID => exact tail l hl
      | other => exact tail l hl
      | annotation _ ps hf =>
        rcases List.mem_cons.1 hl with rfl | hl
        · exact ⟨s, ⟨k, r, rfl⟩, hf⟩
        · exact tail l hl
  intro a ha
  obtain ⟨l, hl, rfl⟩ := List.mem_map.1 ha
  obtain ⟨s, hs, hf⟩ := key l hl
  obtain ⟨b, hb⟩ := Option.ne_none_iff_exists'.1 (hk l hl)
  constructor
  · simp only [hb, Option.getD_some]
    obtain ⟨p, hp, hpb⟩ := lastGiven_mem hb
    exact (annotationPieces_infix hf p hp b (.inl hpb)).trans hs
  · intro v hv
    obtain ⟨p, hp, hpb⟩ := lastGiven_mem hv
    exact (annotationPieces_infix hf p hp v (.inr hpb)).trans hs

/-- A message that no RemoteCollector sends: the annotation, without a value and with a superfluous zero digit in the length of its key, comes first;
the fields of the span ID are in another order, with an unknown field, and the parent is given twice. -/
def oddMessage : Bytes :=
  [0x2b, 0x32, 0x81, 0x00, 0x6b, 0x2c, 0x0b, 0x21, 3, 0, 0, 0, 0, 0, 0, 0, 0x19, 2, 0, 0, 0, 0, 0, 0, 0, 0x40, 7, 0x11, 1, 0, 0, 0, 0, 0, 0, 0,
    0x21, 4, 0, 0, 0, 0, 0, 0, 0, 0x0c]

theorem oddMessage_says : Says oddMessage ⟨1, 2, 4⟩ [⟨b!"k", none⟩] :=
  (unmarshal_iff _ _ _).1 ⟨{ spanid := some ⟨some 1, some 2, some 4⟩, annotation := [⟨some b!"k", none⟩] }, by decide +kernel, rfl, rfl⟩

example : IsFrame (46 :: oddMessage) oddMessage := ⟨[46], rfl, by decide, .last 46 (by decide), by decide⟩

/-- A message whose key is said to have two bytes where only one is left says nothing. -/
example : ∀ id as, ¬ Says (oddMessage ++ [0x2b, 0x32, 2, 0x6b]) id as := fun id as h => by
  obtain ⟨p, hp, _⟩ := (unmarshal_iff _ _ _).2 h
  rw [show unmarshal (oddMessage ++ [0x2b, 0x32, 2, 0x6b]) = none by decide +kernel] at hp
  cases hp

example : WithinLimit (⟨1, 2, 0⟩, [⟨b!"k", some b!"v"⟩]) := by decide

end Appdash
