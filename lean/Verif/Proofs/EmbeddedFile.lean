import Verif.Spec.EmbeddedFile

/-! # The invariant of an open embedded file -/

namespace Appdash

/-- The file's own position agrees with the calls, and the `gzip.Reader` is where it should be. -/
structure OpenFileInv (f : OpenFile) (content : Bytes) (p : Int) : Prop where
  same : f.content = content
  size : f.uncompressedSize = content.length
  gr : f.grPos = f.at'
  le : f.at' ≤ content.length
  pos : f.seekPos = p

theorem reads_inv {f f' : OpenFile} {content : Bytes} {p : Int} {k : Nat} {data : Bytes} {err : Option FileErr} (h : OpenFileInv f content p)
    (h0 : 0 ≤ p) (h1 : p ≤ content.length) (hr : f.Reads k data err f') :
    RightRead content p k data err ∧ OpenFileInv f' content (p + data.length) := by
  have hw : ∃ a : Nat, f.rewind = { f with at' := a, grPos := a } ∧ (a : Int) ≤ p ∧ a ≤ content.length := by
    unfold OpenFile.rewind
    split
    · exact ⟨0, rfl, by simpa using h0, by omega⟩
    · next hg =>
      refine ⟨f.at', ?_, ?_, h.le⟩
      · cases f; have := h.gr; simp at this; simp [this]
      · have := h.gr; have := h.pos; omega
  obtain ⟨a, hw, ha, hal⟩ := hw
  have hf : f.rewind.forward = ({ f with at' := p.toNat, grPos := p }, none) := by
    rw [hw]
    unfold OpenFile.forward
    simp only [h.pos, h.same]
    by_cases hlt : (a : Int) < p
    · rw [if_pos hlt]
      have : a + (p - (a : Int)).toNat = p.toNat := by omega
      rw [readFull, if_pos (by omega), this]
    · rw [if_neg hlt]
      have hap : (a : Int) = p := by omega
      subst hap
      simp [h.same]
  rw [OpenFile.Reads, hf] at hr
  obtain ⟨⟨g1, g2, g3, g4, g5⟩, hf'⟩ := hr
  rw [h.same] at g1 g4
  have hlen : data.length ≤ content.length - p.toNat := by simpa using g1.length_le
  refine ⟨⟨g1, g2, fun hk hp hd => ?_, ?_⟩, ?_⟩
  · have : content.length ≤ p.toNat + data.length := g4 (g5 hk hd)
    simp [hd] at this
    omega
  · rcases g3 with g3 | g3
    · exact .inl g3
    · exact .inr ⟨g3, by have : content.length ≤ p.toNat + data.length := g4 g3; omega⟩
  · subst hf'
    exact ⟨h.same, h.size, by simp; omega, by simp; omega, by simp⟩

theorem positionAfter_append (size : Int) (pre : List FileCall) (c : FileCall) :
    positionAfter size (pre ++ [c]) = match c with
      | .seek o .start _ => o
      | .seek o .current _ => positionAfter size pre + o
      | .seek o .fromEnd _ => size + o
      | .read _ data _ => positionAfter size pre + data.length := by
  rcases c with ⟨o, _ | _ | _, r⟩ | ⟨k, data, err⟩ <;> simp [positionAfter]

theorem run_right {f : OpenFile} {content : Bytes} {before cs : List FileCall} (hr : f.Run cs)
    (h : OpenFileInv f content (positionAfter content.length before))
    (h0 : ∀ pre post, cs = pre ++ post → 0 ≤ positionAfter content.length (before ++ pre))
    (h1 : ∀ pre k data err post, cs = pre ++ .read k data err :: post → positionAfter content.length (before ++ pre) ≤ content.length) :
    ∀ pre c post, cs = pre ++ c :: post → match c with
      | .seek o w r => r = positionAfter content.length (before ++ pre ++ [.seek o w r])
      | .read k data err => RightRead content (positionAfter content.length (before ++ pre)) k data err := by
  induction hr generalizing before with
  | nil => intro pre c post hs; simp at hs
  | seek f o w cs _ ih =>
    have hpos : (f.seek o w).seekPos = positionAfter content.length (before ++ [.seek o w (f.seek o w).seekPos]) := by
      rw [positionAfter_append]
      cases w <;> simp [OpenFile.seek, h.pos, h.size]
    have hinv : OpenFileInv (f.seek o w) content (positionAfter content.length (before ++ [.seek o w (f.seek o w).seekPos])) := by
      refine ⟨?_, ?_, ?_, ?_, hpos⟩ <;> cases w <;> simp [OpenFile.seek, h.same, h.size, h.gr, h.le]
    intro pre c post hs
    cases pre with
    | nil =>
      simp only [List.nil_append, List.cons.injEq] at hs
      rw [← hs.1, List.append_nil]
      exact hpos
    | cons x pre =>
      simp only [List.cons_append, List.cons.injEq] at hs
      obtain ⟨rfl, hs⟩ := hs
      have := ih hinv
        (fun pre post e => by have := h0 (_ :: pre) post (by rw [e]; rfl); simpa using this)
        (fun pre k data err post e => by have := h1 (_ :: pre) k data err post (by rw [e]; rfl); simpa using this) pre c post hs
      simpa using this
  | read f f' k data err cs hread _ ih =>
    have hp0 := h0 [] _ rfl
    have hp1 := h1 [] k data err cs rfl
    rw [List.append_nil] at hp0 hp1
    obtain ⟨hright, hinv⟩ := reads_inv h hp0 hp1 hread
    have hinv' : OpenFileInv f' content (positionAfter content.length (before ++ [.read k data err])) := by
      rw [positionAfter_append]; exact hinv
    intro pre c post hs
    cases pre with
    | nil =>
      simp only [List.nil_append, List.cons.injEq] at hs
      rw [← hs.1, List.append_nil]
      exact hright
    | cons x pre =>
      simp only [List.cons_append, List.cons.injEq] at hs
      obtain ⟨rfl, hs⟩ := hs
      have := ih hinv'
        (fun pre post e => by have := h0 (_ :: pre) post (by rw [e]; rfl); simpa using this)
        (fun pre k data err post e => by have := h1 (_ :: pre) k data err post (by rw [e]; rfl); simpa using this) pre c post hs
      simpa using this

theorem openFileInv_new (content : Bytes) : OpenFileInv (.new content content.length) content (positionAfter content.length []) :=
  ⟨rfl, rfl, rfl, Nat.zero_le _, rfl⟩

theorem reads_concat {f : OpenFile} {content : Bytes} {n : Nat} (h : OpenFileInv f content n) (hn : n ≤ content.length)
    (rs : List (Nat × Bytes)) (k : Nat) (last : Bytes)
    (hr : f.Run (rs.map (fun r => .read r.1 r.2 none) ++ [.read k last (some .eof)])) : content.drop n = rs.flatMap Prod.snd ++ last := by
  induction rs generalizing f n with
  | nil =>
    cases hr with
    | read _ _ _ _ _ _ hread _ =>
      obtain ⟨⟨h1, _, _, h4⟩, _⟩ := reads_inv h (by omega) (by omega) hread
      simp only [Int.toNat_natCast] at h1
      have hl := h1.length_le
      simp at hl h4
      simpa using (h1.eq_of_length (by simp; omega)).symm
  | cons r rs ih =>
    cases hr with
    | read _ f' _ _ _ _ hread hrest =>
      obtain ⟨⟨h1, _, _, _⟩, hinv⟩ := reads_inv h (by omega) (by omega) hread
      simp only [Int.toNat_natCast] at h1
      have hl := h1.length_le
      simp at hl
      obtain ⟨t, ht⟩ := h1
      have := ih (n := n + r.2.length) (by simpa using hinv) (by omega) hrest
      rw [List.flatMap_cons, List.append_assoc, ← this, ← List.drop_drop, ← ht]
      simp

end Appdash
