import Verif.Proofs.Rfc3339

/-!
# Properties C135 and C136: the texts of times
-/

namespace Appdash

open Spec

/-! ## C135 -/

/-- **C135** (reading).  A text is read as the time `t` exactly if it consists of date, `T`, time of day, fraction and zone of `t`, where the
hour may have one digit and the zone may be any number of hours and minutes of two digits. -/
theorem time_read_iff (s : Bytes) (t : GoTime) : parseTime s = some t ↔ TimeText 2 99 99 s t ∨ TimeText 1 99 99 s t := parseTime_iff s t

theorem timeText_weaken {k h m h' m' : Nat} (hh : h ≤ h') (hm : m ≤ m') {s : Bytes} {t : GoTime} (ht : TimeText k h m s t) :
    TimeText k h' m' s t := by
  obtain ⟨y, mo, d, hr, mi, sec, f, z, e, ny, nmo, nd, nh, nmi, nsec, hf, hz, hex⟩ := ht
  refine ⟨y, mo, d, hr, mi, sec, f, z, e, ny, nmo, nd, nh, nmi, nsec, hf, ?_, hex⟩
  rcases hz with hz | ⟨hs, ms, a, b, n1, n2, l1, l2, hz⟩
  · exact Or.inl hz
  · exact Or.inr ⟨hs, ms, a, b, n1, n2, by omega, by omega, hz⟩

/-- **C135** (reading RFC 3339).  In particular every RFC 3339 text is read as the time it denotes. -/
theorem rfc3339_read {s : Bytes} {t : GoTime} (h : RFC3339 s t) : parseTime s = some t :=
  (parseTime_iff s t).2 (Or.inl (timeText_weaken (by decide) (by decide) h))

/-- **C135** (no ambiguity).  An RFC 3339 text denotes one time. -/
theorem rfc3339_unambiguous {s : Bytes} {t t' : GoTime} (h : RFC3339 s t) (h' : RFC3339 s t') : t = t' := by
  have := (rfc3339_read h).symm.trans (rfc3339_read h')
  injection this

/-- **C135** (writing).  What is written for a time, in the years up to 9999 and in a zone less than a day off, is an RFC 3339 text for it. -/
theorem format_rfc3339 {t : GoTime} (he : t.exists = true) (hy : t.year ≤ 9999) (hn : t.nsec < 10 ^ 9) (ho : t.off.natAbs < 1440) :
    RFC3339 (formatTime t) t := by
  have hr := inRange_of_exists t he
  have hr' := hr
  simp only [GoTime.inRange, Bool.and_eq_true, decide_eq_true_eq] at hr'
  have hd : t.day < 100 := by
    have := hr'.1.1.1.2
    have : daysIn t.year t.month ≤ 31 := by unfold daysIn; split <;> [(split <;> omega); (split <;> omega)]
    omega
  have hf : Fraction (formatFrac t.nsec) t.nsec := by
    obtain ⟨f, e, hf⟩ := readFrac_some (readFrac_formatFrac t.nsec hn 90 [] (by decide) (by decide))
    rw [List.append_cancel_right e]
    exact hf
  refine ⟨pad4 t.year, pad2 t.month, pad2 t.day, pad2 t.hour, pad2 t.min, pad2 t.sec, formatFrac t.nsec, formatZone t.off, ?_,
    pad4_numeral (by omega), pad2_numeral (by omega), pad2_numeral hd, pad2_numeral (by omega), pad2_numeral (by omega),
    pad2_numeral (by omega), hf, formatZone_zone ho, he⟩
  simp [formatTime]

/-- **C135** (the shortest).  No RFC 3339 text for the time is shorter than the one that is written. -/
theorem format_shortest {s : Bytes} {t : GoTime} (h : RFC3339 s t) : (formatTime t).length ≤ s.length := by
  obtain ⟨y, mo, d, hr, mi, sec, f, z, rfl, ny, nmo, nd, nh, nmi, nsec, hf, hz, -⟩ := h
  have h1 := formatFrac_shortest hf
  have h2 := formatZone_shortest hz
  simp only [formatTime, List.length_append, List.length_cons, List.length_nil, pad4, pad2, ny.length, nmo.length, nd.length, nh.length,
    nmi.length, nsec.length]
  omega

example : formatTime ⟨2016, 2, 29, 7, 5, 9, 120000000, -90⟩ = b!"2016-02-29T07:05:09.12-01:30" := by decide

example : RFC3339 b!"2016-02-29T07:05:09.12-01:30" ⟨2016, 2, 29, 7, 5, 9, 120000000, -90⟩ := by
  rw [show b!"2016-02-29T07:05:09.12-01:30" = formatTime ⟨2016, 2, 29, 7, 5, 9, 120000000, -90⟩ by decide]
  exact format_rfc3339 (t := ⟨2016, 2, 29, 7, 5, 9, 120000000, -90⟩) (by decide) (by decide) (by decide) (by decide)

/-- With one digit for the hour. -/
example : parseTime b!"2016-02-29T7:05:09.120+01:30" = some ⟨2016, 2, 29, 7, 5, 9, 120000000, 90⟩ := by decide

/-! ## C136 -/

/-- **C136**, as a user would expect it: every text that is a `date-time` according to RFC 3339 is read. -/
def DateTimesRead : Prop := ∀ s, DateTime s → ∃ t, parseTime s = some t

/-- **C136** (refutation): leap seconds and small letters are not read. -/
theorem date_times_not_read : ¬ DateTimesRead ∧
    DateTime b!"2016-12-31T23:59:60Z" ∧ parseTime b!"2016-12-31T23:59:60Z" = none ∧
    DateTime b!"2016-12-31t23:59:59Z" ∧ parseTime b!"2016-12-31t23:59:59Z" = none ∧
    DateTime b!"2016-12-31T23:59:59z" ∧ parseTime b!"2016-12-31T23:59:59z" = none := by
  have num : ∀ {n : Nat}, n < 100 → Numeral 2 (pad2 n) n := fun h => pad2_numeral h
  have h1 : DateTime b!"2016-12-31T23:59:60Z" :=
    ⟨pad4 2016, pad2 12, pad2 31, 84, pad2 23, pad2 59, pad2 60, [], b!"Z", 2016, 12, 31, 23, 59, 60, by decide, by decide,
      pad4_numeral (by decide), num (by decide), num (by decide), num (by decide), num (by decide), num (by decide), by decide,
      Or.inl rfl, Or.inr ⟨0, Or.inl ⟨rfl, rfl⟩⟩, by decide⟩
  have n1 : parseTime b!"2016-12-31T23:59:60Z" = none := by decide
  refine ⟨?_, h1, n1, ?_, by decide, ?_, by decide⟩
  · intro H
    obtain ⟨t, h⟩ := H _ h1
    rw [n1] at h
    cases h
  · exact ⟨pad4 2016, pad2 12, pad2 31, 116, pad2 23, pad2 59, pad2 59, [], b!"Z", 2016, 12, 31, 23, 59, 59, by decide, by decide,
      pad4_numeral (by decide), num (by decide), num (by decide), num (by decide), num (by decide), num (by decide), by decide,
      Or.inl rfl, Or.inr ⟨0, Or.inl ⟨rfl, rfl⟩⟩, by decide⟩
  · exact ⟨pad4 2016, pad2 12, pad2 31, 84, pad2 23, pad2 59, pad2 59, [], b!"z", 2016, 12, 31, 23, 59, 59, by decide, by decide,
      pad4_numeral (by decide), num (by decide), num (by decide), num (by decide), num (by decide), num (by decide), by decide,
      Or.inl rfl, Or.inl rfl, by decide⟩

/-- **C136** (what holds).  With capital letters, a second of at most 59 and a fraction of at most nine digits they are.  Missing: small
letters, leap seconds and longer fractions, which some versions of Go read. -/
theorem date_times_read_partial {s y mo d h mi sec f z : Bytes} {vy vmo vd vh vmi vsec : Nat}
    (hs : s = y ++ b!"-" ++ mo ++ b!"-" ++ d ++ b!"T" ++ h ++ b!":" ++ mi ++ b!":" ++ sec ++ f ++ z) (ny : Numeral 4 y vy)
    (nmo : Numeral 2 mo vmo) (nd : Numeral 2 d vd) (nh : Numeral 2 h vh) (nmi : Numeral 2 mi vmi) (nsec : Numeral 2 sec vsec)
    {ns : Nat} (hf : Fraction f ns) {off : Int} (hz : Zone 23 59 z off) (he : GoTime.exists ⟨vy, vmo, vd, vh, vmi, vsec, ns, off⟩ = true) :
    parseTime s = some ⟨vy, vmo, vd, vh, vmi, vsec, ns, off⟩ :=
  rfc3339_read ⟨y, mo, d, h, mi, sec, f, z, hs, ny, nmo, nd, nh, nmi, nsec, hf, hz, he⟩

end Appdash
