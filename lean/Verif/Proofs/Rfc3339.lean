import Verif.Proofs.ReflectKeys
import Verif.Spec.Rfc3339

/-! # Times as text -/

namespace Appdash

open Spec

/-- What `decimal` adds to an accumulator. -/
def decimalFrom (acc : Nat) (s : Bytes) : Nat := s.foldl (fun n c => 10 * n + (c.toNat - 48)) acc

theorem digitVal_iff (c : UInt8) (d : Nat) : digitVal? c = some d ↔ (48 ≤ c.toNat ∧ c.toNat ≤ 57) ∧ d = c.toNat - 48 := by
  unfold digitVal?
  split
  · rename_i h
    simp only [Option.some.injEq, h, and_self, true_and]
    exact eq_comm
  · rename_i h
    simp [h]

theorem readDigit_iff (s : Bytes) (d : Nat) (r : Bytes) :
    readDigit s = some (d, r) ↔ ∃ c, s = c :: r ∧ (48 ≤ c.toNat ∧ c.toNat ≤ 57) ∧ d = c.toNat - 48 := by
  cases s with
  | nil => simp [readDigit]
  | cons c s =>
    simp only [readDigit]
    cases hd : digitVal? c with
    | none =>
      simp only [reduceCtorEq, false_iff, not_exists, not_and, List.cons.injEq]
      rintro c' ⟨rfl, -⟩ hc e
      rw [(digitVal_iff c d).2 ⟨hc, e⟩] at hd
      cases hd
    | some d' =>
      obtain ⟨h1, h2⟩ := (digitVal_iff c d').1 hd
      simp only [Option.some.injEq, Prod.mk.injEq, List.cons.injEq]
      constructor
      · rintro ⟨rfl, rfl⟩; exact ⟨c, ⟨rfl, rfl⟩, h1, h2⟩
      · rintro ⟨c', ⟨rfl, rfl⟩, -, e⟩; exact ⟨h2.trans e.symm, rfl⟩

theorem readDigit_none (s : Bytes) : readDigit s = none ↔ ∀ c ∈ s.head?, ¬ (48 ≤ c.toNat ∧ c.toNat ≤ 57) := by
  cases s with
  | nil => simp [readDigit]
  | cons c s =>
    simp only [readDigit, List.head?_cons, Option.mem_some_iff, forall_eq']
    unfold digitVal?
    split <;> simp_all

theorem readNum_iff (k acc : Nat) (s : Bytes) (n : Nat) (r : Bytes) :
    readNum k acc s = some (n, r) ↔
      ∃ ds, s = ds ++ r ∧ ds.length = k ∧ (∀ c ∈ ds, 48 ≤ c.toNat ∧ c.toNat ≤ 57) ∧ n = decimalFrom acc ds := by
  induction k generalizing acc s with
  | zero =>
    simp only [readNum, Option.some.injEq, Prod.mk.injEq]
    constructor
    · rintro ⟨rfl, rfl⟩; exact ⟨[], rfl, rfl, by simp, rfl⟩
    · rintro ⟨ds, e, hl, -, hv⟩
      obtain rfl := List.length_eq_zero_iff.1 hl
      exact ⟨hv.symm, e⟩
  | succ k ih =>
    simp only [readNum]
    cases hd : readDigit s with
    | none =>
      simp only [reduceCtorEq, false_iff, not_exists, not_and]
      rintro ds e hl hds
      cases ds with
      | nil => cases hl
      | cons c ds =>
        have := (readDigit_none s).1 hd c (by rw [e]; rfl)
        exact absurd (hds c (by simp)) this
    | some x =>
      obtain ⟨d, s'⟩ := x
      obtain ⟨c, e, hc, hv⟩ := (readDigit_iff s d s').1 hd
      dsimp only
      rw [ih]
      constructor
      · rintro ⟨ds, e', hl, hds, hn⟩
        refine ⟨c :: ds, by rw [e, e']; rfl, by simp [hl], ?_, ?_⟩
        · intro x hx
          rcases List.mem_cons.1 hx with rfl | hx
          · exact hc
          · exact hds x hx
        · rw [hn]
          simp only [decimalFrom, List.foldl_cons, hv, Nat.mul_comm]
      · rintro ⟨ds, e', hl, hds, hn⟩
        cases ds with
        | nil => cases hl
        | cons c' ds =>
          rw [e] at e'
          obtain ⟨rfl, e2⟩ := List.cons.inj e'
          refine ⟨ds, e2, by simpa using hl, fun x hx => hds x (by simp [hx]), ?_⟩
          rw [hn]
          simp only [decimalFrom, List.foldl_cons, hv, Nat.mul_comm]

theorem readNum_numeral (k : Nat) (s : Bytes) (n : Nat) (r : Bytes) :
    readNum k 0 s = some (n, r) ↔ ∃ ds, s = ds ++ r ∧ Numeral k ds n := by
  rw [readNum_iff]
  constructor
  · rintro ⟨ds, h1, h2, h3, h4⟩; exact ⟨ds, h1, ⟨h2, h3, h4⟩⟩
  · rintro ⟨ds, h1, h2⟩; exact ⟨ds, h1, h2.length, h2.digits, h2.value⟩

theorem readHour_numeral (s : Bytes) (n : Nat) (r : Bytes) :
    readHour s = some (n, r) ↔
      (∃ ds, s = ds ++ r ∧ Numeral 2 ds n) ∨ ((∀ c ∈ r.head?, ¬ (48 ≤ c.toNat ∧ c.toNat ≤ 57)) ∧ ∃ ds, s = ds ++ r ∧ Numeral 1 ds n) := by
  have h2 := readNum_numeral 2 s n r
  have h1 := readNum_numeral 1 s n r
  rw [← h1, ← h2]
  simp only [readNum, readHour]
  cases hd : readDigit s with
  | none => simp
  | some x =>
    obtain ⟨d, s'⟩ := x
    dsimp only
    cases he : readDigit s' with
    | none =>
      have := (readDigit_none s').1 he
      simp only [Option.some.injEq, Prod.mk.injEq, Nat.zero_mul, Nat.zero_add, reduceCtorEq, false_or]
      constructor
      · rintro ⟨rfl, rfl⟩; exact ⟨this, rfl, rfl⟩
      · rintro ⟨-, h⟩; exact h
    | some y =>
      obtain ⟨e, s''⟩ := y
      simp only [Option.some.injEq, Prod.mk.injEq, Nat.zero_mul, Nat.zero_add]
      constructor
      · exact Or.inl
      · rintro (h | ⟨h, -, rfl⟩)
        · exact h
        · rw [(readDigit_none s').2 h] at he
          cases he

theorem readByte_iff (c : UInt8) (s r : Bytes) : readByte c s = some r ↔ s = c :: r := by
  cases s with
  | nil => simp [readByte]
  | cons x s =>
    simp only [readByte, List.cons.injEq]
    split
    · rename_i h; subst h; simp
    · rename_i h; simp [h]

theorem readDigits_spec (acc n : Nat) (s : Bytes) :
    ∃ ds, s = ds ++ (readDigits acc n s).2.2 ∧ (∀ c ∈ ds, 48 ≤ c.toNat ∧ c.toNat ≤ 57) ∧
      (∀ c ∈ (readDigits acc n s).2.2.head?, ¬ (48 ≤ c.toNat ∧ c.toNat ≤ 57)) ∧
      (readDigits acc n s).2.1 = n + ds.length ∧ (readDigits acc n s).1 = decimalFrom acc ds := by
  induction s generalizing acc n with
  | nil => exact ⟨[], rfl, by simp, by simp [readDigits], rfl, rfl⟩
  | cons c s ih =>
    simp only [readDigits]
    cases hd : digitVal? c with
    | none =>
      refine ⟨[], rfl, by simp, ?_, rfl, rfl⟩
      simp only [List.head?_cons, Option.mem_some_iff, forall_eq']
      intro hc
      rw [(digitVal_iff c _).2 ⟨hc, rfl⟩] at hd
      cases hd
    | some d =>
      obtain ⟨h1, h2⟩ := (digitVal_iff c d).1 hd
      obtain ⟨ds, e1, e2, e3, e4, e5⟩ := ih (acc * 10 + d) (n + 1)
      refine ⟨c :: ds, by rw [List.cons_append, ← e1], ?_, e3, ?_, ?_⟩
      · intro x hx
        rcases List.mem_cons.1 hx with rfl | hx
        · exact h1
        · exact e2 x hx
      · rw [e4, List.length_cons]; omega
      · rw [e5]; simp only [decimalFrom, List.foldl_cons, h2, Nat.mul_comm]

/-- Digits are read up to the first byte that is none. -/
theorem readDigits_append (acc n : Nat) (ds r : Bytes) (hds : ∀ c ∈ ds, 48 ≤ c.toNat ∧ c.toNat ≤ 57)
    (hr : ∀ c ∈ r.head?, ¬ (48 ≤ c.toNat ∧ c.toNat ≤ 57)) : readDigits acc n (ds ++ r) = (decimalFrom acc ds, n + ds.length, r) := by
  induction ds generalizing acc n with
  | nil =>
    cases r with
    | nil => rfl
    | cons c r =>
      have : digitVal? c = none := by
        have := hr c (by simp)
        unfold digitVal?
        rw [if_neg this]
      simp only [List.nil_append, readDigits, this]
      rfl
  | cons c ds ih =>
    have := (digitVal_iff c _).2 ⟨hds c (by simp), rfl⟩
    simp only [List.cons_append, readDigits, this]
    rw [ih _ _ fun x hx => hds x (by simp [hx])]
    simp only [decimalFrom, List.foldl_cons, List.length_cons, Prod.mk.injEq, and_true, true_and, Nat.mul_comm]
    omega

theorem readFrac_some {s : Bytes} {n : Nat} {r : Bytes} (h : readFrac s = some (n, r)) : ∃ f, s = f ++ r ∧ Fraction f n := by
  unfold readFrac at h
  split at h
  · rename_i s
    obtain ⟨ds, e1, e2, e3, e4, e5⟩ := readDigits_spec 0 0 s
    rcases hx : readDigits 0 0 s with ⟨v, k, r'⟩
    rw [hx] at h e1 e3 e4 e5
    dsimp only at h e1 e3 e4 e5
    split at h
    · cases h
    · rename_i hk
      simp only [Option.some.injEq, Prod.mk.injEq] at h
      obtain ⟨rfl, rfl⟩ := h
      refine ⟨46 :: ds, by rw [e1]; rfl, Or.inr ⟨ds, k, v, rfl, by omega, by omega, ⟨by omega, e2, e5⟩, rfl⟩⟩
  · simp only [Option.some.injEq, Prod.mk.injEq] at h
    obtain ⟨rfl, rfl⟩ := h
    exact ⟨[], rfl, Or.inl ⟨rfl, rfl⟩⟩

theorem readFrac_fraction {f : Bytes} {n : Nat} {r : Bytes} (hf : Fraction f n)
    (hr : ∀ c ∈ r.head?, ¬ (48 ≤ c.toNat ∧ c.toNat ≤ 57) ∧ c ≠ 46) : readFrac (f ++ r) = some (n, r) := by
  rcases hf with ⟨rfl, rfl⟩ | ⟨ds, k, v, rfl, h1, h2, hn, rfl⟩
  · rw [List.nil_append]
    unfold readFrac
    split
    · rename_i s
      exact absurd rfl (hr 46 (by simp)).2
    · rfl
  · rw [List.append_assoc]
    simp only [List.cons_append, List.nil_append, readFrac]
    rw [readDigits_append 0 0 ds r hn.digits fun c hc => (hr c hc).1]
    have := hn.length
    dsimp only
    rw [if_neg (by omega)]
    simp only [Option.some.injEq, Prod.mk.injEq, and_true]
    rw [Nat.zero_add, this, hn.value]
    rfl

theorem numeral2_lt {s : Bytes} {n : Nat} (h : Numeral 2 s n) : n ≤ 99 := by
  obtain ⟨hl, hd, rfl⟩ := h
  match s, hl with
  | [a, b], _ =>
    have := hd a (by simp)
    have := hd b (by simp)
    simp only [decimal, List.foldl_cons, List.foldl_nil]
    omega

theorem readZone_iff (s : Bytes) (off : Int) (r : Bytes) : readZone s = some (off, r) ↔ ∃ z, s = z ++ r ∧ Zone 99 99 z off := by
  constructor
  · intro h
    unfold readZone at h
    cases s with
    | nil => cases h
    | cons c s =>
      dsimp only at h
      split at h
      · rename_i hc
        simp only [Option.some.injEq, Prod.mk.injEq] at h
        obtain ⟨rfl, rfl⟩ := h
        exact ⟨b!"Z", by rw [hc]; rfl, Or.inl ⟨rfl, rfl⟩⟩
      · split at h
        · rename_i hc
          simp only [Option.bind_eq_bind, Option.bind_eq_some_iff, Prod.exists, Option.some.injEq, Prod.mk.injEq] at h
          obtain ⟨hv, s1, h1, s2, h2, mv, s3, h3, h4, rfl⟩ := h
          obtain ⟨hs, rfl, nh⟩ := (readNum_numeral _ _ _ _).1 h1
          obtain rfl := (readByte_iff _ _ _).1 h2
          obtain ⟨ms, rfl, nm⟩ := (readNum_numeral _ _ _ _).1 h3
          rcases hc with rfl | rfl
          · refine ⟨b!"+" ++ hs ++ b!":" ++ ms, by simp, Or.inr ⟨hs, ms, hv, mv, nh, nm, numeral2_lt nh, numeral2_lt nm, Or.inl ⟨rfl, ?_⟩⟩⟩
            rw [if_neg (by decide)] at h4
            omega
          · refine ⟨b!"-" ++ hs ++ b!":" ++ ms, by simp, Or.inr ⟨hs, ms, hv, mv, nh, nm, numeral2_lt nh, numeral2_lt nm, Or.inr ⟨rfl, ?_⟩⟩⟩
            rw [if_pos rfl] at h4
            omega
        · cases h
  · rintro ⟨z, rfl, hz⟩
    rcases hz with ⟨rfl, rfl⟩ | ⟨hs, ms, h, m, nh, nm, -, -, ⟨rfl, rfl⟩ | ⟨rfl, rfl⟩⟩
    · rfl
    · have e1 := (readNum_numeral 2 (hs ++ 58 :: (ms ++ r)) h _).2 ⟨hs, rfl, nh⟩
      have e2 := (readNum_numeral 2 (ms ++ r) m _).2 ⟨ms, rfl, nm⟩
      simp only [List.append_assoc, List.cons_append, List.nil_append, readZone, e1, e2, Option.bind_eq_bind, Option.bind_some, readByte,
        if_true, true_or]
      rw [if_neg (by decide), if_neg (by decide)]
      simp
    · have e1 := (readNum_numeral 2 (hs ++ 58 :: (ms ++ r)) h _).2 ⟨hs, rfl, nh⟩
      have e2 := (readNum_numeral 2 (ms ++ r) m _).2 ⟨ms, rfl, nm⟩
      simp only [List.append_assoc, List.cons_append, List.nil_append, readZone, e1, e2, Option.bind_eq_bind, Option.bind_some, readByte,
        if_true, or_true]
      rw [if_neg (by decide)]
      simp

theorem zone_head {hm mm : Nat} {z : Bytes} {off : Int} (hz : Zone hm mm z off) :
    ∀ c ∈ z.head?, ¬ (48 ≤ c.toNat ∧ c.toNat ≤ 57) ∧ c ≠ 46 := by
  rcases hz with ⟨rfl, -⟩ | ⟨hs, ms, h, m, -, -, -, -, ⟨rfl, -⟩ | ⟨rfl, -⟩⟩ <;>
    (simp only [List.cons_append, List.nil_append, List.head?_cons, Option.mem_some_iff, forall_eq']; decide)

theorem exists_of_inRange (t : GoTime) (h : t.inRange = true) : t.exists = true := by
  simp only [GoTime.inRange, Bool.and_eq_true, decide_eq_true_eq] at h
  obtain ⟨⟨⟨⟨⟨⟨h1, h2⟩, h3⟩, h4⟩, h5⟩, h6⟩, h7⟩ := h
  simp only [GoTime.exists, Bool.and_eq_true, decide_eq_true_eq]
  refine ⟨⟨⟨⟨⟨h1, h3⟩, ?_⟩, by omega⟩, by omega⟩, by omega⟩
  have hleap : isLeap t.year = true ↔ (4 ∣ t.year ∧ (¬ 100 ∣ t.year ∨ 400 ∣ t.year)) := by
    simp only [isLeap, Bool.and_eq_true, Bool.or_eq_true, beq_iff_eq, bne_iff_ne, ne_eq, Nat.dvd_iff_mod_eq_zero]
  have hm : t.month = 1 ∨ t.month = 2 ∨ t.month = 3 ∨ t.month = 4 ∨ t.month = 5 ∨ t.month = 6 ∨ t.month = 7 ∨ t.month = 8 ∨
    t.month = 9 ∨ t.month = 10 ∨ t.month = 11 ∨ t.month = 12 := by omega
  rcases hm with e | e | e | e | e | e | e | e | e | e | e | e <;> rw [e] at h4 ⊢ <;> simp [daysIn, monthLengths] at h4 ⊢ <;>
    try exact h4
  by_cases hl : isLeap t.year = true
  · rw [if_pos hl] at h4; rw [if_pos (hleap.1 hl)]; exact h4
  · rw [if_neg hl] at h4; rw [if_neg (fun h => hl (hleap.2 h))]; exact h4

/-- The texts that are read as times. -/
theorem parseTime_iff (s : Bytes) (t : GoTime) : parseTime s = some t ↔ TimeText 2 99 99 s t ∨ TimeText 1 99 99 s t := by
  constructor
  · intro h
    unfold parseTime at h
    obtain ⟨⟨y, s1⟩, h1, h⟩ := Option.bind_eq_some_iff.1 h
    obtain ⟨s2, h2, h⟩ := Option.bind_eq_some_iff.1 h
    obtain ⟨⟨mo, s3⟩, h3, h⟩ := Option.bind_eq_some_iff.1 h
    obtain ⟨s4, h4, h⟩ := Option.bind_eq_some_iff.1 h
    obtain ⟨⟨d, s5⟩, h5, h⟩ := Option.bind_eq_some_iff.1 h
    obtain ⟨s6, h6, h⟩ := Option.bind_eq_some_iff.1 h
    obtain ⟨⟨hr, s7⟩, h7, h⟩ := Option.bind_eq_some_iff.1 h
    obtain ⟨s8, h8, h⟩ := Option.bind_eq_some_iff.1 h
    obtain ⟨⟨mi, s9⟩, h9, h⟩ := Option.bind_eq_some_iff.1 h
    obtain ⟨s10, h10, h⟩ := Option.bind_eq_some_iff.1 h
    obtain ⟨⟨sec, s11⟩, h11, h⟩ := Option.bind_eq_some_iff.1 h
    obtain ⟨⟨ns, s12⟩, h12, h⟩ := Option.bind_eq_some_iff.1 h
    obtain ⟨⟨off, s13⟩, h13, h⟩ := Option.bind_eq_some_iff.1 h
    have h14 := h
    clear h
    dsimp only at h1 h2 h3 h4 h5 h6 h7 h8 h9 h10 h11 h12 h13 h14
    split at h14
    · rename_i hend
      injection h14 with h14
      subst h14
      obtain ⟨rfl, hin⟩ := hend
      obtain ⟨y', rfl, ny⟩ := (readNum_numeral _ _ _ _).1 h1
      obtain rfl := (readByte_iff _ _ _).1 h2
      obtain ⟨mo', rfl, nmo⟩ := (readNum_numeral _ _ _ _).1 h3
      obtain rfl := (readByte_iff _ _ _).1 h4
      obtain ⟨d', rfl, nd⟩ := (readNum_numeral _ _ _ _).1 h5
      obtain rfl := (readByte_iff _ _ _).1 h6
      obtain rfl := (readByte_iff _ _ _).1 h8
      obtain ⟨mi', rfl, nmi⟩ := (readNum_numeral _ _ _ _).1 h9
      obtain rfl := (readByte_iff _ _ _).1 h10
      obtain ⟨sec', rfl, nsec⟩ := (readNum_numeral _ _ _ _).1 h11
      obtain ⟨f, rfl, hf⟩ := readFrac_some h12
      obtain ⟨z, rfl, hz⟩ := (readZone_iff _ _ _).1 h13
      rcases (readHour_numeral _ _ _).1 h7 with ⟨h', rfl, nh⟩ | ⟨-, h', rfl, nh⟩
      · exact Or.inl ⟨y', mo', d', h', mi', sec', f, z, by simp, ny, nmo, nd, nh, nmi, nsec, hf, hz, exists_of_inRange _ hin⟩
      · exact Or.inr ⟨y', mo', d', h', mi', sec', f, z, by simp, ny, nmo, nd, nh, nmi, nsec, hf, hz, exists_of_inRange _ hin⟩
    · cases h14
  · have main : ∀ k, k = 2 ∨ k = 1 → TimeText k 99 99 s t → parseTime s = some t := by
      rintro k hk ⟨y, mo, d, h, mi, sec, f, z, rfl, ny, nmo, nd, nh, nmi, nsec, hf, hz, hex⟩
      have r1 := (readNum_numeral 4 (y ++ 45 :: (mo ++ 45 :: (d ++ 84 :: (h ++ 58 :: (mi ++ 58 :: (sec ++ (f ++ z))))))) t.year _).2 ⟨y, rfl, ny⟩
      have r2 := (readNum_numeral 2 (mo ++ 45 :: (d ++ 84 :: (h ++ 58 :: (mi ++ 58 :: (sec ++ (f ++ z)))))) t.month _).2 ⟨mo, rfl, nmo⟩
      have r3 := (readNum_numeral 2 (d ++ 84 :: (h ++ 58 :: (mi ++ 58 :: (sec ++ (f ++ z))))) t.day _).2 ⟨d, rfl, nd⟩
      have r4 : readHour (h ++ 58 :: (mi ++ 58 :: (sec ++ (f ++ z)))) = some (t.hour, 58 :: (mi ++ 58 :: (sec ++ (f ++ z)))) := by
        rw [readHour_numeral]
        rcases hk with rfl | rfl
        · exact Or.inl ⟨h, rfl, nh⟩
        · exact Or.inr ⟨by simp only [List.head?_cons, Option.mem_some_iff, forall_eq']; decide, h, rfl, nh⟩
      have r5 := (readNum_numeral 2 (mi ++ 58 :: (sec ++ (f ++ z))) t.min _).2 ⟨mi, rfl, nmi⟩
      have r6 := (readNum_numeral 2 (sec ++ (f ++ z)) t.sec _).2 ⟨sec, rfl, nsec⟩
      have r7 := readFrac_fraction hf (zone_head hz)
      have r8 := (readZone_iff z t.off []).2 ⟨z, by simp, hz⟩
      simp only [List.append_assoc, List.cons_append, List.nil_append]
      unfold parseTime
      refine Option.bind_eq_some_iff.2 ⟨_, r1, ?_⟩
      refine Option.bind_eq_some_iff.2 ⟨_, (readByte_iff _ _ _).2 rfl, ?_⟩
      refine Option.bind_eq_some_iff.2 ⟨_, r2, ?_⟩
      refine Option.bind_eq_some_iff.2 ⟨_, (readByte_iff _ _ _).2 rfl, ?_⟩
      refine Option.bind_eq_some_iff.2 ⟨_, r3, ?_⟩
      refine Option.bind_eq_some_iff.2 ⟨_, (readByte_iff _ _ _).2 rfl, ?_⟩
      refine Option.bind_eq_some_iff.2 ⟨_, r4, ?_⟩
      refine Option.bind_eq_some_iff.2 ⟨_, (readByte_iff _ _ _).2 rfl, ?_⟩
      refine Option.bind_eq_some_iff.2 ⟨_, r5, ?_⟩
      refine Option.bind_eq_some_iff.2 ⟨_, (readByte_iff _ _ _).2 rfl, ?_⟩
      refine Option.bind_eq_some_iff.2 ⟨_, r6, ?_⟩
      refine Option.bind_eq_some_iff.2 ⟨_, r7, ?_⟩
      refine Option.bind_eq_some_iff.2 ⟨_, r8, ?_⟩
      dsimp only
      rw [if_pos ⟨rfl, inRange_of_exists t hex⟩]
    rintro (h | h)
    · exact main 2 (Or.inl rfl) h
    · exact main 1 (Or.inr rfl) h

/-! ## What `Format` writes -/

theorem digitByte_range (n : Nat) : 48 ≤ (digitByte n).toNat ∧ (digitByte n).toNat ≤ 57 := by
  have : (digitByte n).toNat = 48 + n % 10 := by
    simp only [digitByte, UInt8.toNat_ofNat']
    omega
  omega

theorem digitByte_val (n : Nat) : (digitByte n).toNat - 48 = n % 10 := by
  have : (digitByte n).toNat = 48 + n % 10 := by
    simp only [digitByte, UInt8.toNat_ofNat']
    omega
  omega

theorem pad2_numeral {n : Nat} (h : n < 100) : Numeral 2 (pad2 n) n := by
  refine ⟨rfl, ?_, ?_⟩
  · intro c hc
    simp only [pad2, List.mem_cons, List.not_mem_nil, or_false] at hc
    rcases hc with rfl | rfl <;> exact digitByte_range _
  · simp only [pad2, decimal, List.foldl_cons, List.foldl_nil, digitByte_val]
    omega

theorem pad4_numeral {n : Nat} (h : n < 10000) : Numeral 4 (pad4 n) n := by
  refine ⟨rfl, ?_, ?_⟩
  · intro c hc
    simp only [pad4, List.mem_cons, List.not_mem_nil, or_false] at hc
    rcases hc with rfl | rfl | rfl | rfl <;> exact digitByte_range _
  · simp only [pad4, decimal, List.foldl_cons, List.foldl_nil, digitByte_val]
    omega

theorem formatZone_zone {off : Int} (h : off.natAbs < 1440) : Zone 23 59 (formatZone off) off := by
  unfold formatZone
  split
  · rename_i h0; exact Or.inl ⟨rfl, h0⟩
  · right
    refine ⟨pad2 (off.natAbs / 60), pad2 (off.natAbs % 60), off.natAbs / 60, off.natAbs % 60, pad2_numeral (by omega),
      pad2_numeral (by omega), by omega, by omega, ?_⟩
    by_cases hn : off < 0
    · right
      rw [if_pos hn]
      exact ⟨by simp, by omega⟩
    · left
      rw [if_neg hn]
      exact ⟨by simp, by omega⟩

/-- Zeros at the end of the number are zeros at the end of its digits. -/
theorem padTo_zeros (k j v : Nat) : padTo (k + j) (v * 10 ^ j) = padTo k v ++ List.replicate j 48 := by
  induction j with
  | zero => simp
  | succ j ih =>
    have e1 : v * 10 ^ (j + 1) / 10 = v * 10 ^ j := by
      rw [Nat.pow_succ, ← Nat.mul_assoc, Nat.mul_div_cancel _ (by decide)]
    have e2 : digitByte (v * 10 ^ (j + 1)) = 48 := by
      rw [Nat.pow_succ, ← Nat.mul_assoc]
      simp [digitByte]
    rw [← Nat.add_assoc, padTo, e1, ih, e2, List.append_assoc, ← List.replicate_succ']

theorem trimZeros_length (a : Bytes) (j : Nat) : (trimZeros (a ++ List.replicate j 48)).length ≤ a.length := by
  unfold trimZeros
  rw [List.length_reverse, List.reverse_append, List.reverse_replicate]
  have : ∀ j, ((List.replicate j (48 : UInt8) ++ a.reverse).dropWhile (· = 48)).length ≤ a.length := by
    intro j
    induction j with
    | zero =>
      rw [List.replicate_zero, List.nil_append]
      have := (List.dropWhile_sublist (fun x : UInt8 => decide (x = 48)) (l := a.reverse)).length_le
      rw [List.length_reverse] at this
      exact this
    | succ j ih =>
      rw [List.replicate_succ, List.cons_append, List.dropWhile_cons_of_pos (by simp)]
      exact ih
  exact this j

theorem length_padTo (k n : Nat) : (padTo k n).length = k := by
  induction k generalizing n with
  | zero => rfl
  | succ k ih => rw [padTo, List.length_append, ih]; rfl

theorem formatFrac_shortest {f : Bytes} {n : Nat} (h : Fraction f n) : (formatFrac n).length ≤ f.length := by
  rcases h with ⟨rfl, rfl⟩ | ⟨ds, k, v, rfl, h1, h2, hv, rfl⟩
  · exact Nat.le_refl _
  · unfold formatFrac
    split
    · exact Nat.zero_le _
    · have e : padTo 9 (v * 10 ^ (9 - k)) = padTo k v ++ List.replicate (9 - k) 48 := by
        rw [← padTo_zeros]
        congr 1
        omega
      rw [e, List.length_cons, List.length_append, hv.length]
      have := trimZeros_length (padTo k v) (9 - k)
      rw [length_padTo] at this
      simp only [List.length_cons, List.length_nil]
      omega

theorem formatZone_shortest {hm mm : Nat} {z : Bytes} {off : Int} (h : Zone hm mm z off) : (formatZone off).length ≤ z.length := by
  rcases h with ⟨rfl, rfl⟩ | ⟨hs, ms, h, m, nh, nm, -, -, ⟨rfl, e⟩ | ⟨rfl, e⟩⟩
  · exact Nat.le_refl _
  all_goals
    unfold formatZone
    split
    · simp
    · simp only [pad2, List.length_cons, List.length_append, List.length_nil, nh.length, nm.length]
      omega

end Appdash
