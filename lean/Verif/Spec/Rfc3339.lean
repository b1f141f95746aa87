import Verif.Spec.Event

/-!
# Specification of times as text (RFC 3339, section 5.6)
-/

namespace Appdash.Spec

/-- The number that decimal digits denote, the first being the most significant. -/
def decimal (s : Bytes) : Nat := s.foldl (fun n c => 10 * n + (c.toNat - 48)) 0

/-- `s` consists of `k` decimal digits and denotes `n`. -/
structure Numeral (k : Nat) (s : Bytes) (n : Nat) : Prop where
  length : s.length = k
  digits : ∀ c ∈ s, 48 ≤ c.toNat ∧ c.toNat ≤ 57
  value : n = decimal s

/-- The fraction of a second, from one to nine digits, or nothing. -/
def Fraction (s : Bytes) (nsec : Nat) : Prop :=
  (s = [] ∧ nsec = 0) ∨ ∃ ds k n, s = b!"." ++ ds ∧ 1 ≤ k ∧ k ≤ 9 ∧ Numeral k ds n ∧ nsec = n * 10 ^ (9 - k)

/-- `Z`, or a sign, hours and minutes; `off` is in minutes.  The hours are at most `hmax` and the minutes at most `mmax`. -/
def Zone (hmax mmax : Nat) (s : Bytes) (off : Int) : Prop :=
  (s = b!"Z" ∧ off = 0) ∨ ∃ hs ms h m, Numeral 2 hs h ∧ Numeral 2 ms m ∧ h ≤ hmax ∧ m ≤ mmax ∧
    ((s = b!"+" ++ hs ++ b!":" ++ ms ∧ off = h * 60 + m) ∨ (s = b!"-" ++ hs ++ b!":" ++ ms ∧ off = -(h * 60 + m)))

/-- `s` is a text for the time `t`: date, `T`, time of day, fraction and zone, where the hour has `k` digits. -/
def TimeText (k hmax mmax : Nat) (s : Bytes) (t : GoTime) : Prop :=
  ∃ y mo d h mi sec f z, s = y ++ b!"-" ++ mo ++ b!"-" ++ d ++ b!"T" ++ h ++ b!":" ++ mi ++ b!":" ++ sec ++ f ++ z ∧
    Numeral 4 y t.year ∧ Numeral 2 mo t.month ∧ Numeral 2 d t.day ∧ Numeral k h t.hour ∧ Numeral 2 mi t.min ∧ Numeral 2 sec t.sec ∧
    Fraction f t.nsec ∧ Zone hmax mmax z t.off ∧ t.exists = true

/-- `s` is an RFC 3339 text for the time `t`, with capital letters and without a leap second, in nanoseconds at most. -/
def RFC3339 (s : Bytes) (t : GoTime) : Prop := TimeText 2 23 59 s t

/-- `s` is generated by the rule `date-time` of RFC 3339: letters may be small, the second may be 60 and the fraction may have any number of
digits. -/
def DateTime (s : Bytes) : Prop :=
  ∃ y mo d T h mi sec f z vy vmo vd vh vmi vsec,
    s = y ++ b!"-" ++ mo ++ b!"-" ++ d ++ [T] ++ h ++ b!":" ++ mi ++ b!":" ++ sec ++ f ++ z ∧ (T = 84 ∨ T = 116) ∧
    Numeral 4 y vy ∧ Numeral 2 mo vmo ∧ Numeral 2 d vd ∧ Numeral 2 h vh ∧ Numeral 2 mi vmi ∧ Numeral 2 sec vsec ∧ vsec ≤ 60 ∧
    (f = [] ∨ ∃ ds k n, f = b!"." ++ ds ∧ 1 ≤ k ∧ Numeral k ds n) ∧ (z = b!"z" ∨ ∃ off, Zone 23 59 z off) ∧
    GoTime.exists ⟨vy, vmo, vd, vh, vmi, min vsec 59, 0, 0⟩ = true

end Appdash.Spec
