import Verif.Proofs.HeaderSlices

/-!
# C92: recording leaves the headers of requests and responses alone
-/

namespace Appdash

open Spec

/-- **C92**.  If no header value has spare capacity that it shares with another value, then recording a request or response changes none
of its headers and trailers, and the recorded headers are those that the model without sharing (`RedactsTo`) gives. -/
theorem recording_leaves_headers {red : Redaction} {red1 : GoSlice} {heap heap' : ArrayHeap} {header trailer : AMap Bytes GoSlice}
    {m : AMap Bytes Bytes} (U : Unshared heap red1 header trailer) (h : RedactsSlices red red1 heap header trailer heap' m) :
    readSlices heap' header = readSlices heap header ∧ readSlices heap' trailer = readSlices heap trailer ∧
      RedactsTo red (readSlices heap header) (readSlices heap trailer) m := by
  obtain ⟨hs, ts, hh, ht, r, hr, es, he, hm⟩ := h
  have hts : (AMap.keys ts).Nodup := (ht.map Prod.fst).nodup_iff.2 U.distinct.2
  have I0 : SliceInv red red1 heap header trailer ts heap (sliceHeaderLoop red red1 hs []) := by
    refine ⟨Nat.le_refl _, ?_, (sliceHeaderLoop_entries hs []).2 List.nodup_nil, ?_⟩
    · rintro t (⟨e, he, rfl⟩ | rfl)
      · exact ⟨rfl, U.valid e he⟩
      · exact ⟨rfl, U.constant.1⟩
    · intro k s hg
      rcases (sliceHeaderLoop_entries hs []).1 k s hg with h | h | h
      · cases h
      · exact .inr (.inl h)
      · have hmem := hh.mem_iff.1 h.2
        exact .inl ⟨(k, s), hmem, rfl, rfl, rfl, rfl, U.valid (k, s) (by simp [hmem]), fun _ => rfl⟩
  obtain ⟨I, e⟩ := sliceTrailerLoop_read U ts heap _ (fun e he => ht.mem_iff.1 he) hts I0
  rw [hr] at I e
  simp only at I e
  refine ⟨?_, ?_, readSlices heap hs, readSlices heap ts, es, hh.map _, ht.map _, ?_, hm⟩
  · exact List.map_congr_left fun x hx => by rw [(I.keep x.2 (.inl ⟨x, by simp [hx], rfl⟩)).1]
  · exact List.map_congr_left fun x hx => by rw [(I.keep x.2 (.inl ⟨x, by simp [hx], rfl⟩)).1]
  · rw [e, sliceHeaderLoop_read U.constant.2] at he
    exact he

/-- The arrays of the two cases below: one that the header values `A` and `B` share, the trailer's, and the package's. -/
def sampleArrays : ArrayHeap := [[b!"a", b!"b"], [b!"t"], [b!"REDACTED"]]

/-- **C92** (why values must not share).  Header values cut from one array without limiting their capacity: the trailer value is
written over the next header's value, in the request itself and in the record. -/
theorem shared_header_overwritten :
    RedactsSlices ⟨[], fun _ _ => false⟩ ⟨2, 0, 1, 1⟩ sampleArrays [(b!"A", ⟨0, 0, 1, 2⟩), (b!"B", ⟨0, 1, 1, 1⟩)] [(b!"A", ⟨1, 0, 1, 1⟩)]
      [[b!"a", b!"t"], [b!"t"], [b!"REDACTED"]] [(b!"A", b!"a,t"), (b!"B", b!"t")] ∧
    readSlices sampleArrays [(b!"B", ⟨0, 1, 1, 1⟩)] = [(b!"B", [b!"b"])] ∧
    readSlices [[b!"a", b!"t"], [b!"t"], [b!"REDACTED"]] [(b!"B", ⟨0, 1, 1, 1⟩)] = [(b!"B", [b!"t"])] :=
  ⟨⟨_, _, .refl _, .refl _, _, rfl, _, .refl _, by decide⟩, by decide, by decide⟩

/-- Header values as net/http cuts them, from one array with limited capacity, meet the hypotheses. -/
example : Unshared sampleArrays ⟨2, 0, 1, 1⟩ [(b!"A", ⟨0, 0, 1, 1⟩), (b!"B", ⟨0, 1, 1, 1⟩)] [(b!"A", ⟨1, 0, 1, 1⟩)] where
  distinct := by decide
  valid := by
    intro e he
    simp only [List.cons_append, List.nil_append, List.mem_cons, List.not_mem_nil, or_false] at he
    rcases he with rfl | rfl | rfl <;> exact ⟨by decide, _, rfl, by decide⟩
  constant := ⟨⟨by decide, _, rfl, by decide⟩, by decide⟩
  apart := by
    intro e he
    simp only [List.mem_cons, List.not_mem_nil, or_false] at he
    rcases he with rfl | rfl <;> exact .inl rfl

/-- So does a value with spare capacity of its own. -/
example : Unshared sampleArrays ⟨2, 0, 1, 1⟩ [(b!"A", ⟨0, 0, 1, 2⟩)] [(b!"A", ⟨1, 0, 1, 1⟩)] where
  distinct := by decide
  valid := by
    intro e he
    simp only [List.cons_append, List.nil_append, List.mem_cons, List.not_mem_nil, or_false] at he
    rcases he with rfl | rfl <;> exact ⟨by decide, _, rfl, by decide⟩
  constant := ⟨⟨by decide, _, rfl, by decide⟩, by decide⟩
  apart := by
    intro e he
    simp only [List.mem_cons, List.not_mem_nil, or_false] at he
    subst he
    refine .inr ⟨?_, ?_, .inl (by decide)⟩
    · intro f hf hk
      simp only [List.mem_cons, List.not_mem_nil, or_false] at hf
      subst hf
      exact absurd rfl hk
    · intro f hf
      simp only [List.mem_cons, List.not_mem_nil, or_false] at hf
      subst hf
      exact .inl (by decide)

end Appdash
