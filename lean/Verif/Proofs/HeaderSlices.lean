import Verif.Spec.HeaderSlices
import Verif.Proofs.Http

namespace Appdash

open Spec

theorem overwrite_length {a : List Bytes} {pos : Nat} {vs : List Bytes} (h : pos + vs.length ≤ a.length) :
    (overwrite a pos vs).length = a.length := by
  simp [overwrite]; omega

/-- Ranges before or after the written one read the same. -/
theorem overwrite_other {a : List Bytes} {pos off n : Nat} {vs : List Bytes} (h : pos + vs.length ≤ a.length)
    (hd : off + n ≤ pos ∨ pos + vs.length ≤ off) : ((overwrite a pos vs).drop off).take n = (a.drop off).take n := by
  apply List.ext_getElem?
  intro i
  simp only [List.getElem?_take, List.getElem?_drop, overwrite]
  split
  · rw [List.getElem?_append, List.getElem?_append]
    simp only [List.length_append, List.length_take, List.getElem?_take, List.getElem?_drop]
    grind
  · rfl

theorem overwrite_self {a : List Bytes} {off n : Nat} {vs : List Bytes} (h : off + n + vs.length ≤ a.length) :
    ((overwrite a (off + n) vs).drop off).take (n + vs.length) = (a.drop off).take n ++ vs := by
  apply List.ext_getElem?
  intro i
  rw [List.getElem?_append]
  simp only [List.getElem?_take, List.getElem?_drop, overwrite, List.length_take, List.length_drop]
  rw [List.getElem?_append, List.getElem?_append]
  simp only [List.length_append, List.length_take, List.getElem?_take, List.getElem?_drop]
  grind

theorem read_of {s : GoSlice} {heap : ArrayHeap} {a : List Bytes} (h : heap[s.arr]? = some a) :
    s.read heap = (a.drop s.off).take s.len := by rw [GoSlice.read, h]; rfl

/-- Changing the array of one slice leaves the others alone. -/
theorem append_keeps {s t : GoSlice} {heap : ArrayHeap} (vs : List Bytes)
    (h : s.len = s.cap ∨ s.Valid heap ∧ s.Apart t) (ht : t.Valid heap) :
    t.read (s.append heap vs).1 = t.read heap ∧ t.Valid (s.append heap vs).1 := by
  obtain ⟨hl, a, ha, hb⟩ := ht
  have hlt : t.arr < heap.length := (List.getElem?_eq_some_iff.1 ha).1
  unfold GoSlice.append
  split
  · rename_i hc
    by_cases e : s.arr = t.arr
    · have hget : (heap.set s.arr (overwrite (heap[s.arr]?.getD []) (s.off + s.len) vs))[t.arr]? = some (overwrite a (s.off + s.len) vs) := by
        rw [e, List.getElem?_set_self hlt, ha]; rfl
      rcases h with h | ⟨hv, hap⟩
      · have : vs = [] := by
          cases vs with
          | nil => rfl
          | cons => simp at hc; omega
        subst this
        have e0 : overwrite a (s.off + s.len) [] = a := by simp [overwrite]
        rw [e0] at hget
        exact ⟨by rw [read_of hget, read_of ha], hl, a, hget, hb⟩
      · obtain ⟨-, a', ha', hb'⟩ := hv
        rw [e, ha] at ha'
        injection ha' with ha'
        subst ha'
        have hb2 : s.off + s.len + vs.length ≤ a.length := by omega
        refine ⟨?_, hl, _, hget, by rw [overwrite_length hb2]; exact hb⟩
        rw [read_of hget, read_of ha]
        apply overwrite_other hb2
        rcases hap with h | h | h
        · exact absurd e h
        · right; omega
        · left; omega
    · have hget : (heap.set s.arr (overwrite (heap[s.arr]?.getD []) (s.off + s.len) vs))[t.arr]? = some a := by
        rw [List.getElem?_set_ne e, ha]
      exact ⟨by rw [read_of hget, read_of ha], hl, a, hget, hb⟩
  · have hget : (heap ++ [s.read heap ++ vs])[t.arr]? = some a := by
      rw [List.getElem?_append_left hlt, ha]
    exact ⟨by rw [read_of hget, read_of ha], hl, a, hget, hb⟩

/-- Appending to a slice does not change the slice itself. -/
theorem append_keeps_self {s : GoSlice} {heap : ArrayHeap} (vs : List Bytes) (h : s.Valid heap) :
    s.read (s.append heap vs).1 = s.read heap ∧ s.Valid (s.append heap vs).1 := by
  obtain ⟨hl, a, ha, hb⟩ := h
  have hlt : s.arr < heap.length := (List.getElem?_eq_some_iff.1 ha).1
  unfold GoSlice.append
  split
  · have hget : (heap.set s.arr (overwrite (heap[s.arr]?.getD []) (s.off + s.len) vs))[s.arr]? = some (overwrite a (s.off + s.len) vs) := by
      rw [List.getElem?_set_self hlt, ha]; rfl
    have hb2 : s.off + s.len + vs.length ≤ a.length := by omega
    refine ⟨?_, hl, _, hget, by rw [overwrite_length hb2]; exact hb⟩
    rw [read_of hget, read_of ha]
    exact overwrite_other hb2 (.inl (Nat.le_refl _))
  · have hget : (heap ++ [s.read heap ++ vs])[s.arr]? = some a := by
      rw [List.getElem?_append_left hlt, ha]
    exact ⟨by rw [read_of hget, read_of ha], hl, a, hget, hb⟩

/-- What the result of `append` is. -/
theorem append_result {s : GoSlice} {heap : ArrayHeap} (vs : List Bytes) (h : s = .nil ∨ s.Valid heap) :
    (s.append heap vs).2.read (s.append heap vs).1 = s.read heap ++ vs ∧ heap.length ≤ (s.append heap vs).1.length ∧
      ((s = .nil ∧ (s.append heap vs).2 = .nil) ∨
      (s.append heap vs).2.Valid (s.append heap vs).1 ∧
        ((s ≠ .nil ∧ (s.append heap vs).2.arr = s.arr ∧ (s.append heap vs).2.off = s.off ∧ (s.append heap vs).2.cap = s.cap) ∨
          (s.append heap vs).2.arr = heap.length)) := by
  unfold GoSlice.append
  split
  · rename_i hc
    by_cases hn : s = .nil
    · subst hn
      have : vs = [] := by
        cases vs with
        | nil => rfl
        | cons => simp [GoSlice.nil] at hc
      subst this
      simp [GoSlice.read, GoSlice.nil]
    · obtain ⟨hl, a, ha, hb⟩ := h.resolve_left hn
      have hlt : s.arr < heap.length := (List.getElem?_eq_some_iff.1 ha).1
      have hget : (heap.set s.arr (overwrite (heap[s.arr]?.getD []) (s.off + s.len) vs))[s.arr]? = some (overwrite a (s.off + s.len) vs) := by
        rw [List.getElem?_set_self hlt, ha]; rfl
      have hb2 : s.off + s.len + vs.length ≤ a.length := by omega
      refine ⟨?_, by simp, .inr ⟨⟨hc, _, hget, by rw [overwrite_length hb2]; exact hb⟩, .inl ⟨hn, rfl, rfl, rfl⟩⟩⟩
      rw [read_of (s := { s with len := s.len + vs.length }) hget, read_of ha]
      exact overwrite_self hb2
  · have hlen : (s.read heap).length = s.len := by
      rcases h with rfl | ⟨hl, a, ha, hb⟩
      · simp [GoSlice.nil, GoSlice.read]
      · simp only [GoSlice.read, ha, Option.getD_some, List.length_take, List.length_drop]; omega
    refine ⟨?_, by simp, .inr ⟨⟨Nat.le_refl _, s.read heap ++ vs, by simp, by simp [hlen]⟩, .inr rfl⟩⟩
    rw [read_of (a := s.read heap ++ vs) (by simp)]
    simp only [List.drop_zero]
    exact List.take_of_length_le (by simp [hlen])

theorem AMap.ext_get {K V : Type} [DecidableEq K] {m m' : AMap K V} (hn : m.keys.Nodup) (hk : m.keys = m'.keys)
    (h : ∀ k, m.get k = m'.get k) : m = m' := by
  induction m generalizing m' with
  | nil => cases m' with
    | nil => rfl
    | cons => simp [AMap.keys] at hk
  | cons p m ih =>
    cases m' with
    | nil => simp [AMap.keys] at hk
    | cons q m' =>
      obtain ⟨a, b⟩ := p
      obtain ⟨a', b'⟩ := q
      simp only [AMap.keys, List.map_cons, List.cons.injEq, List.nodup_cons] at hk hn
      obtain ⟨rfl, hk⟩ := hk
      have h0 := h a
      simp only [AMap.get, if_true, Option.some.injEq] at h0
      subst h0
      rw [ih hn.2 hk]
      intro k
      by_cases e : a = k
      · subst e
        rw [(AMap.not_mem_keys_iff m a).1 hn.1, (AMap.not_mem_keys_iff m' a).1 (by rw [AMap.keys, ← hk]; exact hn.1)]
      · simpa [AMap.get, e] using h k

theorem readSlices_get (heap : ArrayHeap) (m : AMap Bytes GoSlice) (k : Bytes) :
    AMap.get (readSlices heap m) k = (AMap.get m k).map fun s => s.read heap := by
  induction m with
  | nil => rfl
  | cons p m ih =>
    simp only [readSlices, List.map_cons, AMap.get] at ih ⊢
    split
    · rfl
    · exact ih

theorem readSlices_keys (heap : ArrayHeap) (m : AMap Bytes GoSlice) : (readSlices heap m).keys = m.keys := by
  simp [readSlices, AMap.keys]

theorem readSlices_set (heap : ArrayHeap) (m : AMap Bytes GoSlice) (k : Bytes) (s : GoSlice) :
    readSlices heap (AMap.set m k s) = AMap.set (readSlices heap m) k (s.read heap) := by
  induction m with
  | nil => rfl
  | cons p m ih =>
    simp only [readSlices, List.map_cons, AMap.set] at ih ⊢
    split
    · rfl
    · simp only [List.map_cons, ih]

/-- The loop over the header shares slices only. -/
theorem sliceHeaderLoop_read {red : Redaction} {red1 : GoSlice} {heap : ArrayHeap} (hc : red1.read heap = [b!"REDACTED"])
    (hs : List (Bytes × GoSlice)) : ∀ m : AMap Bytes GoSlice,
    readSlices heap (sliceHeaderLoop red red1 hs m) = redactHeaderLoop red (readSlices heap hs) (readSlices heap m) := by
  induction hs with
  | nil => intro m; rfl
  | cons e es ih =>
    intro m
    rw [sliceHeaderLoop, ih, readSlices_set, show readSlices heap (e :: es) = (e.1, e.2.read heap) :: readSlices heap es from rfl,
      redactHeaderLoop]
    congr 2
    split
    · exact hc
    · rfl

theorem sliceHeaderLoop_entries {red : Redaction} {red1 : GoSlice} (hs : List (Bytes × GoSlice)) : ∀ m : AMap Bytes GoSlice,
    (∀ k s, AMap.get (sliceHeaderLoop red red1 hs m) k = some s → AMap.get m k = some s ∨ (isRedacted red k = true ∧ s = red1) ∨
      (isRedacted red k = false ∧ (k, s) ∈ hs)) ∧ (m.keys.Nodup → (sliceHeaderLoop red red1 hs m).keys.Nodup) := by
  induction hs with
  | nil => intro m; exact ⟨fun k s h => .inl h, id⟩
  | cons e es ih =>
    intro m
    obtain ⟨k0, v0⟩ := e
    refine ⟨fun k s h => ?_, fun hn => (ih _).2 (AMap.nodup_keys_set _ _ _ hn)⟩
    rcases (ih _).1 k s h with h | h | h
    · rw [AMap.get_set] at h
      split at h
      · injection h with h
        subst h
        subst k0
        split
        · exact .inr (.inl ⟨by assumption, rfl⟩)
        · rename_i hr
          exact .inr (.inr ⟨by simpa using hr, by simp⟩)
      · exact .inl h
    · exact .inr (.inl h)
    · exact .inr (.inr ⟨h.1, by simp [h.2]⟩)

/-- The state of the loop over the trailer. -/
structure SliceInv (red : Redaction) (red1 : GoSlice) (h0 : ArrayHeap) (header trailer : AMap Bytes GoSlice)
    (todo : List (Bytes × GoSlice)) (heap : ArrayHeap) (m : AMap Bytes GoSlice) : Prop where
  len : h0.length ≤ heap.length
  keep : ∀ t, (∃ e ∈ header ++ trailer, e.2 = t) ∨ t = red1 → t.read heap = t.read h0 ∧ t.Valid heap
  nodup : m.keys.Nodup
  ent : ∀ k s, AMap.get m k = some s →
    (∃ e ∈ header, e.1 = k ∧ s.arr = e.2.arr ∧ s.off = e.2.off ∧ s.cap = e.2.cap ∧ s.Valid heap ∧ (k ∈ AMap.keys todo → s = e.2)) ∨
    (isRedacted red k = true ∧ s = red1) ∨ (h0.length ≤ s.arr ∧ s.Valid heap ∧ k ∉ AMap.keys todo) ∨ (s = .nil ∧ k ∉ AMap.keys todo)

theorem sliceTrailerLoop_read {red : Redaction} {red1 : GoSlice} {h0 : ArrayHeap} {header trailer : AMap Bytes GoSlice}
    (U : Unshared h0 red1 header trailer) (todo : List (Bytes × GoSlice)) : ∀ (heap : ArrayHeap) (m : AMap Bytes GoSlice),
    (∀ e ∈ todo, e ∈ trailer) → (AMap.keys todo).Nodup →
    SliceInv red red1 h0 header trailer todo heap m →
    SliceInv red red1 h0 header trailer [] (sliceTrailerLoop red red1 todo heap m).1 (sliceTrailerLoop red red1 todo heap m).2 ∧
      readSlices (sliceTrailerLoop red red1 todo heap m).1 (sliceTrailerLoop red red1 todo heap m).2 =
        redactTrailerLoop red (readSlices h0 todo) (readSlices heap m) := by
  induction todo with
  | nil => intro heap m _ _ I; exact ⟨I, rfl⟩
  | cons e es ih =>
    intro heap m hsub hnd I
    obtain ⟨k, v⟩ := e
    simp only [AMap.keys, List.map_cons, List.nodup_cons] at hnd
    have hv : v.read heap = v.read h0 := (I.keep v (.inl ⟨(k, v), by simp [hsub (k, v) (by simp)], rfl⟩)).1
    simp only [sliceTrailerLoop, readSlices, List.map_cons, redactTrailerLoop]
    by_cases hr : isRedacted red k = true
    · simp only [hr, if_true]
      have I' : SliceInv red red1 h0 header trailer es heap (AMap.set m k red1) := by
        refine ⟨I.len, I.keep, AMap.nodup_keys_set _ _ _ I.nodup, fun k' s hs => ?_⟩
        rw [AMap.get_set] at hs
        split at hs
        · injection hs with hs
          subst hs
          subst k'
          exact .inr (.inl ⟨hr, rfl⟩)
        · have := I.ent k' s hs
          simp only [AMap.keys, List.map_cons, List.mem_cons, not_or] at this ⊢
          grind
      have := ih heap _ (fun e he => hsub e (by simp [he])) hnd.2 I'
      refine ⟨this.1, ?_⟩
      have e1 := this.2
      rw [readSlices_set, (I.keep red1 (.inr rfl)).1, U.constant.2] at e1
      simp only [readSlices] at e1
      exact e1
    · rw [Bool.not_eq_true] at hr
      simp only [hr, Bool.false_eq_true, if_false, hv]
      obtain ⟨s, hs⟩ : ∃ s, (AMap.get m k).getD .nil = s := ⟨_, rfl⟩
      -- the slice that is appended to: nil, or the header's own
      have hbase : s = .nil ∨ s.Valid heap ∧ ∃ e ∈ header, e.1 = k ∧ s = e.2 := by
        cases hm : AMap.get m k with
        | none => rw [hm] at hs; exact .inl hs.symm
        | some s' =>
          rw [hm] at hs
          simp only [Option.getD_some] at hs
          subst hs
          right
          rcases I.ent k s' hm with ⟨e, h1, h2, -, -, -, h3, h4⟩ | h | h | h
          · exact ⟨h3, e, h1, h2, h4 (by simp [AMap.keys])⟩
          · rw [hr] at h; cases h.1
          · exact absurd (by simp [AMap.keys]) h.2.2
          · exact absurd (by simp [AMap.keys]) h.2
      have hap : ∀ t : GoSlice, ((∃ f ∈ trailer, f.2 = t) ∨ (∃ f ∈ header, f.1 ≠ k ∧ t.arr = f.2.arr ∧ t.off = f.2.off ∧ t.cap = f.2.cap) ∨
            t = red1 ∨ h0.length ≤ t.arr) → s.len = s.cap ∨ s.Valid heap ∧ s.Apart t := by
        intro t ht
        rcases hbase with rfl | ⟨hv, e, he, hek, rfl⟩
        · exact .inl rfl
        · rcases U.apart e he with h | ⟨h1, h2, h3⟩
          · exact .inl h
          · refine .inr ⟨hv, ?_⟩
            rcases ht with ⟨f, hf, rfl⟩ | ⟨f, hf, hfk, e1, e2, e3⟩ | rfl | ht
            · exact h2 f hf
            · have := h1 f hf (by rw [hek]; exact hfk)
              unfold GoSlice.Apart at this ⊢
              rw [e1, e2, e3]
              exact this
            · exact h3
            · left
              obtain ⟨-, a, ha, -⟩ := U.valid e (by simp [he])
              have := (List.getElem?_eq_some_iff.1 ha).1
              omega
      have hself : ∀ t : GoSlice, (∃ f ∈ header, f.1 = k ∧ f.2 = t) → t.Valid heap →
          t.read (s.append heap (v.read h0)).1 = t.read heap ∧ t.Valid (s.append heap (v.read h0)).1 := by
        rintro t ⟨f, hf, hfk, rfl⟩ ht
        rcases hbase with rfl | ⟨hv, e, he, hek, rfl⟩
        · exact append_keeps _ (.inl rfl) ht
        · have e1 := AMap.get_of_mem U.distinct.1 (show (k, f.2) ∈ header from hfk ▸ hf)
          have e2 := AMap.get_of_mem U.distinct.1 (show (k, e.2) ∈ header from hek ▸ he)
          rw [e1] at e2
          injection e2 with e2
          rw [e2]
          exact append_keeps_self _ hv
      obtain ⟨hres, hlen, hwhere⟩ := append_result (heap := heap) (v.read h0) (hbase.imp id And.left)
      rw [hs]
      have hother : ∀ k' s', k ≠ k' → AMap.get m k' = some s' →
          s'.read (s.append heap (v.read h0)).1 = s'.read heap ∧ (s'.Valid heap → s'.Valid (s.append heap (v.read h0)).1) := by
        intro k' s' hne hg
        have keep : s'.Valid heap → (s.len = s.cap ∨ s.Valid heap ∧ s.Apart s') →
            s'.read (s.append heap (v.read h0)).1 = s'.read heap ∧ (s'.Valid heap → s'.Valid (s.append heap (v.read h0)).1) :=
          fun h1 h2 => ⟨(append_keeps _ h2 h1).1, fun _ => (append_keeps _ h2 h1).2⟩
        rcases I.ent k' s' hg with ⟨f, h1, h2, h3, h4, h5, h6, -⟩ | h | h | h
        · exact keep h6 (hap s' (.inr (.inl ⟨f, h1, by rw [h2]; exact fun h => hne h.symm, h3, h4, h5⟩)))
        · exact keep (h.2 ▸ (I.keep red1 (.inr rfl)).2) (hap s' (.inr (.inr (.inl h.2))))
        · exact keep h.2.1 (hap s' (.inr (.inr (.inr h.1))))
        · rw [h.1]
          refine ⟨by simp [GoSlice.read, GoSlice.nil], fun hv => ?_⟩
          obtain ⟨-, a, ha, -⟩ := hv
          have hl : 0 < (s.append heap (v.read h0)).1.length := Nat.lt_of_lt_of_le (List.getElem?_eq_some_iff.1 ha).1 hlen
          exact ⟨Nat.le_refl _, _, List.getElem?_eq_getElem hl, Nat.zero_le _⟩
      have I' : SliceInv red red1 h0 header trailer es (s.append heap (v.read h0)).1 (AMap.set m k (s.append heap (v.read h0)).2) := by
        refine ⟨Nat.le_trans I.len hlen, fun t ht => ?_, AMap.nodup_keys_set _ _ _ I.nodup, fun k' s' hs' => ?_⟩
        · obtain ⟨h1, h2⟩ := I.keep t ht
          rw [← h1]
          rcases ht with ⟨e, he, rfl⟩ | rfl
          · rcases List.mem_append.1 he with he | he
            · by_cases hek : e.1 = k
              · exact hself e.2 ⟨e, he, hek, rfl⟩ h2
              · exact append_keeps _ (hap e.2 (.inr (.inl ⟨e, he, hek, rfl, rfl, rfl⟩))) h2
            · exact append_keeps _ (hap e.2 (.inl ⟨e, he, rfl⟩)) h2
          · exact append_keeps _ (hap _ (.inr (.inr (.inl rfl)))) h2
        · rw [AMap.get_set] at hs'
          split at hs'
          · rename_i e
            subst e
            injection hs' with hs'
            subst hs'
            rcases hwhere with h | ⟨hv, ⟨hn, h1, h2, h3⟩ | h⟩
            · exact .inr (.inr (.inr ⟨h.2, hnd.1⟩))
            · obtain ⟨-, e, he, hek, hse⟩ := hbase.resolve_left hn
              subst hse
              exact .inl ⟨e, he, hek, h1, h2, h3, hv, fun h => absurd h hnd.1⟩
            · exact .inr (.inr (.inl ⟨by rw [h]; exact I.len, hv, hnd.1⟩))
          · rename_i hne
            have ho := hother k' s' hne hs'
            have := I.ent k' s' hs'
            simp only [AMap.keys, List.map_cons, List.mem_cons, not_or] at this ⊢
            rcases this with ⟨f, h1, h2, h3, h4, h5, h6, h7⟩ | h | h | h
            · exact .inl ⟨f, h1, h2, h3, h4, h5, ho.2 h6, fun h => h7 (.inr h)⟩
            · exact .inr (.inl h)
            · exact .inr (.inr (.inl ⟨h.1, ho.2 h.2.1, h.2.2.2⟩))
            · exact .inr (.inr (.inr ⟨h.1, h.2.2⟩))
      have := ih _ _ (fun e he => hsub e (by simp [he])) hnd.2 I'
      refine ⟨this.1, this.2.trans ?_⟩
      have e0 : (readSlices h0 es) = es.map fun e => (e.1, e.2.read h0) := rfl
      rw [e0]
      congr 1
      have hg : (AMap.get (readSlices heap m) k).getD [] = s.read heap := by
        rw [readSlices_get, ← hs]
        cases AMap.get m k with
        | none => simp [GoSlice.nil, GoSlice.read]
        | some x => rfl
      refine AMap.ext_get ?_ ?_ ?_
      · rw [readSlices_keys]; exact AMap.nodup_keys_set _ _ _ I.nodup
      · rw [readSlices_keys, AMap.keys_set, AMap.keys_set]
        have e1 := readSlices_get heap m k
        have e2 := readSlices_keys heap m
        simp only [readSlices] at e1 e2
        rw [e1, e2]
        cases AMap.get m k <;> rfl
      · intro k'
        rw [readSlices_set, AMap.get_set, AMap.get_set]
        simp only [readSlices] at hg
        by_cases hk : k = k'
        · subst hk
          simp only [if_true, hres, hg]
        · simp only [hk, if_false]
          have e1 := readSlices_get heap m k'
          simp only [readSlices] at e1
          rw [e1, readSlices_get]
          cases hm : AMap.get m k' with
          | none => rfl
          | some x => simp only [Option.map, (hother k' x hk hm).1]

end Appdash
