/-!
# Prelude: byte strings and association maps

Shared vocabulary of the model.  Nothing here models a particular Go function; Go's `string` and `[]byte`
are lists of bytes and Go's `map[K]V` is an association list.
-/

namespace Appdash

/-- Go strings and byte slices: finite sequences of arbitrary bytes. -/
abbrev Bytes := List UInt8

/-- `b!"text"` is the explicit list of the UTF-8 bytes of the literal, expanded at elaboration time
(so that the kernel can compute with it). -/
macro:max "b!" s:str : term => do
  let bytes := s.getString.toUTF8.toList
  let elems ← bytes.toArray.mapM fun b =>
    `(($(Lean.Syntax.mkNumLit (toString b.toNat)) : UInt8))
  `(([$elems,*] : List UInt8))

deriving instance DecidableEq for Except

/-- Association maps: the model of Go maps.  Keys are kept unique by `set`. -/
abbrev AMap (K V : Type) := List (K × V)

namespace AMap

variable {K V W : Type} [DecidableEq K]

/-- `m[k]` with the "present" flag. -/
def get (m : AMap K V) (k : K) : Option V :=
  match m with
  | [] => none
  | (k', v) :: m => if k' = k then some v else get m k

/-- `m[k] = v`. -/
def set (m : AMap K V) (k : K) (v : V) : AMap K V :=
  match m with
  | [] => [(k, v)]
  | (k', v') :: m => if k' = k then (k, v) :: m else (k', v') :: set m k v

/-- `delete(m, k)`. -/
def del (m : AMap K V) (k : K) : AMap K V :=
  match m with
  | [] => []
  | (k', v') :: m => if k' = k then del m k else (k', v') :: del m k

/-- The keys in representation order. -/
def keys (m : AMap K V) : List K := m.map Prod.fst

@[simp] theorem get_nil (k : K) : get ([] : AMap K V) k = none := rfl

theorem get_set (m : AMap K V) (k k' : K) (v : V) :
    get (set m k v) k' = if k = k' then some v else get m k' := by
  induction m with
  | nil => simp [set, get]
  | cons p m ih =>
    obtain ⟨a, b⟩ := p
    by_cases h : a = k
    · subst h
      by_cases h' : a = k' <;> simp [set, get, h']
    · by_cases h' : a = k'
      · subst h'
        have : ¬ k = a := fun e => h e.symm
        simp [set, get, h, this]
      · simp [set, get, h, h', ih]

@[simp] theorem get_set_self (m : AMap K V) (k : K) (v : V) : get (set m k v) k = some v := by
  simp [get_set]

theorem get_set_ne (m : AMap K V) {k k' : K} (v : V) (h : k ≠ k') :
    get (set m k v) k' = get m k' := by simp [get_set, h]

theorem get_del (m : AMap K V) (k k' : K) :
    get (del m k) k' = if k = k' then none else get m k' := by
  induction m with
  | nil => simp [del, get]
  | cons p m ih =>
    obtain ⟨a, b⟩ := p
    by_cases h : a = k
    · subst h
      by_cases h' : a = k'
      · subst h'; simp [del, ih]
      · simp [del, get, ih, h']
    · by_cases h' : a = k'
      · subst h'
        have : ¬ k = a := fun e => h e.symm
        simp [del, get, h, this]
      · simp [del, get, h, h', ih]

@[simp] theorem get_del_self (m : AMap K V) (k : K) : get (del m k) k = none := by
  simp [get_del]

theorem get_del_ne (m : AMap K V) {k k' : K} (h : k ≠ k') : get (del m k) k' = get m k' := by
  simp [get_del, h]

theorem mem_keys_iff (m : AMap K V) (k : K) : k ∈ keys m ↔ (get m k).isSome := by
  induction m with
  | nil => simp [keys]
  | cons p m ih =>
    obtain ⟨a, b⟩ := p
    by_cases h : a = k
    · subst h; simp [keys, get]
    · have h2 : ¬ k = a := fun e => h e.symm
      simp only [keys, List.map_cons, List.mem_cons, h2, false_or, get, h, if_false]
      simpa [keys] using ih

theorem mem_keys_iff_exists (m : AMap K V) (k : K) : k ∈ keys m ↔ ∃ v, get m k = some v := by
  rw [mem_keys_iff, Option.isSome_iff_exists]

theorem not_mem_keys_iff (m : AMap K V) (k : K) : k ∉ keys m ↔ get m k = none := by
  rw [mem_keys_iff]; cases get m k <;> simp

theorem keys_set (m : AMap K V) (k : K) (v : V) :
    keys (set m k v) = if (get m k).isSome then keys m else keys m ++ [k] := by
  induction m with
  | nil => simp [keys, set]
  | cons p m ih =>
    obtain ⟨a, b⟩ := p
    by_cases h : a = k
    · subst h; simp [keys, set, get]
    · simp only [set, h, if_false, get]
      simp only [keys] at ih ⊢
      simp only [List.map_cons, ih]
      split <;> simp

theorem mem_keys_set (m : AMap K V) (k k' : K) (v : V) :
    k' ∈ keys (set m k v) ↔ k' = k ∨ k' ∈ keys m := by
  rw [mem_keys_iff, get_set, mem_keys_iff]
  by_cases h : k = k'
  · simp [h]
  · have h2 : ¬ k' = k := fun e => h e.symm
    simp [h, h2]

theorem mem_keys_del (m : AMap K V) (k k' : K) :
    k' ∈ keys (del m k) ↔ k' ≠ k ∧ k' ∈ keys m := by
  rw [mem_keys_iff, get_del, mem_keys_iff]
  by_cases h : k = k'
  · simp [h]
  · have h2 : ¬ k' = k := fun e => h e.symm
    simp [h, h2]

theorem nodup_keys_set (m : AMap K V) (k : K) (v : V) (h : (keys m).Nodup) :
    (keys (set m k v)).Nodup := by
  rw [keys_set]
  split
  · exact h
  · rename_i hn
    have : k ∉ keys m := by rw [mem_keys_iff]; exact hn
    rw [List.nodup_append]
    refine ⟨h, by simp, ?_⟩
    intro a ha b hb
    simp only [List.mem_singleton] at hb
    subst hb
    intro e; subst e; exact this ha

theorem keys_del (m : AMap K V) (k : K) : keys (del m k) = (keys m).filter (fun x => decide (x ≠ k)) := by
  induction m with
  | nil => rfl
  | cons p m ih =>
    obtain ⟨a, b⟩ := p
    simp only [keys] at ih ⊢
    by_cases h : a = k
    · simp [del, h, ih]
    · simp [del, h, ih]

theorem nodup_keys_del (m : AMap K V) (k : K) (h : (keys m).Nodup) : (keys (del m k)).Nodup := by
  rw [keys_del]; exact h.filter _

theorem mem_of_get {m : AMap K V} {k : K} {v : V} (h : get m k = some v) : (k, v) ∈ m := by
  induction m with
  | nil => simp at h
  | cons p m ih =>
    obtain ⟨a, b⟩ := p
    by_cases e : a = k
    · subst e
      simp only [get, if_true, Option.some.injEq] at h
      subst h; simp
    · simp only [get, e, if_false] at h
      exact List.mem_cons_of_mem _ (ih h)

theorem get_of_mem {m : AMap K V} {k : K} {v : V} (hn : (keys m).Nodup) (h : (k, v) ∈ m) :
    get m k = some v := by
  induction m with
  | nil => simp at h
  | cons p m ih =>
    obtain ⟨a, b⟩ := p
    simp only [keys, List.map_cons, List.nodup_cons] at hn
    rcases List.mem_cons.1 h with h | h
    · obtain ⟨rfl, rfl⟩ := Prod.mk.injEq .. ▸ h
      simp [get]
    · have : a ≠ k := by
        rintro rfl
        exact hn.1 (List.mem_map.2 ⟨(a, v), h, rfl⟩)
      simp only [get, this, if_false]
      exact ih hn.2 h

end AMap

end Appdash
