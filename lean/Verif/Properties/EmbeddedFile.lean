import Verif.Proofs.EmbeddedFile

/-!
# C128: the embedded files read like files
-/

namespace Appdash

/-- Property C128, in full: an embedded file answers all sequences of calls like a file. -/
def EmbeddedFilesWork : Prop :=
  ∀ (content : Bytes) (cs : List FileCall), (OpenFile.new content content.length).Run cs → PositionsAtLeast0 content cs → RightCalls content cs

/-- A read beyond the end of the file, followed by a read at the beginning. -/
def badCalls : List FileCall := [.seek 5 .start 5, .read 1 [] (some .unexpectedEOF), .seek 0 .start 0, .read 1 [] (some .eof)]

theorem badCalls_run : (OpenFile.new b!"abc" 3).Run badCalls := by
  refine .seek _ 5 .start _ (.read _ ⟨b!"abc", 3, 3, 0, 5⟩ _ _ _ _ ?_ (.seek _ 0 .start _ (.read _ ⟨b!"abc", 3, 3, 0, 0⟩ _ _ _ _ ?_ (.nil _))))
  · exact ⟨rfl, rfl, rfl⟩
  · refine ⟨⟨by simp, by simp, .inr rfl, fun _ => by decide, fun _ _ => rfl⟩, rfl⟩

/-- Property C128 is false of the code: after an attempt to read beyond the end, reading at the beginning finds nothing. -/
theorem embedded_files_broken : ¬ EmbeddedFilesWork := by
  intro h
  have hp : PositionsAtLeast0 b!"abc" badCalls := by
    intro pre post hs
    have he : pre = badCalls.take pre.length := by rw [hs]; simp
    generalize pre.length = n at he
    subst he
    match n with
    | 0 | 1 | 2 | 3 | n + 4 => simp [badCalls, positionAfter]
  have := h b!"abc" badCalls badCalls_run hp [.seek 5 .start 5, .read 1 [] (some .unexpectedEOF), .seek 0 .start 0] (.read 1 [] (some .eof)) [] rfl
  simp [positionAfter, RightRead] at this

/-- Property C128, proved part: as long as no read is attempted beyond the end, the calls get the answers of a file. -/
theorem embedded_files_work_partial (content : Bytes) (cs : List FileCall) (hr : (OpenFile.new content content.length).Run cs)
    (h0 : PositionsAtLeast0 content cs) (h1 : ReadsWithin content cs) : RightCalls content cs := by
  have := run_right (before := []) hr (openFileInv_new content) (by simpa [PositionsAtLeast0] using h0) (by simpa [ReadsWithin] using h1)
  intro pre c post hs
  have := this pre c post hs
  cases c <;> simpa using this

/-- **C128** (as the application reads its templates, with `ioutil.ReadAll`).  Reading to the end, with buffers of any sizes, gives the contents. -/
theorem embedded_file_read_all (content : Bytes) (rs : List (Nat × Bytes)) (k : Nat) (last : Bytes)
    (hr : (OpenFile.new content content.length).Run (rs.map (fun r => .read r.1 r.2 none) ++ [.read k last (some .eof)])) :
    content = rs.flatMap Prod.snd ++ last := by
  simpa using reads_concat (n := 0) (openFileInv_new content) (by omega) rs k last hr

/-- Reading `abc` in pieces, going back, and reading again. -/
def goodCalls : List FileCall :=
  [.read 2 b!"ab" none, .read 2 b!"c" none, .read 2 [] (some .eof), .seek (-2) .current 1, .read 5 b!"bc" (some .eof), .seek 0 .start 0, .read 1 b!"a" none,
    .seek 0 .fromEnd 3]

theorem goodCalls_run : (OpenFile.new b!"abc" 3).Run goodCalls := by
  refine .read _ ⟨b!"abc", 3, 2, 2, 2⟩ _ _ _ _ ?_ (.read _ ⟨b!"abc", 3, 3, 3, 3⟩ _ _ _ _ ?_ (.read _ ⟨b!"abc", 3, 3, 3, 3⟩ _ _ _ _ ?_
    (.seek _ (-2) .current _ (.read _ ⟨b!"abc", 3, 3, 3, 3⟩ _ _ _ _ ?_ (.seek _ 0 .start _ (.read _ ⟨b!"abc", 3, 1, 1, 1⟩ _ _ _ _ ?_
      (.seek _ 0 .fromEnd _ (.nil _))))))))
  all_goals
    refine ⟨⟨by decide, by decide, by decide, by decide, by decide⟩, rfl⟩

example : ReadsWithin b!"abc" goodCalls := by
  intro pre k data err post hs
  have he : pre = goodCalls.take pre.length := by rw [hs]; simp
  generalize pre.length = n at he
  subst he
  match n with
  | 0 | 1 | 2 | 3 | 4 | 5 | 6 | 7 | n + 8 => simp [goodCalls, positionAfter]

/-! ## Directories -/

/-- **C128** (directories).  Whatever the counts, the entries returned by the calls are those of the directory, in order, each once: all that were returned are
the beginning of the list. -/
theorem readdir_prefix {α : Type} (d : OpenDir α) (cs : List Int) (h : d.pos ≤ d.entries.length) :
    (d.run cs).2.pos ≤ d.entries.length ∧ (d.run cs).2.entries = d.entries ∧
      d.entries.take d.pos ++ ((d.run cs).1.flatMap fun r => r.getD []) = d.entries.take (d.run cs).2.pos := by
  induction cs generalizing d with
  | nil => exact ⟨h, rfl, by simp [OpenDir.run]⟩
  | cons c cs ih =>
    have hstep : (d.readdir c).2.entries = d.entries ∧ (d.readdir c).2.pos ≤ d.entries.length ∧
        d.entries.take d.pos ++ ((d.readdir c).1.getD []) = d.entries.take (d.readdir c).2.pos := by
      unfold OpenDir.readdir
      split
      · exact ⟨rfl, h, by simp⟩
      · dsimp only
        generalize hn : (if c ≤ 0 ∨ c > (d.entries.length : Int) - d.pos then d.entries.length - d.pos else c.toNat) = n
        have hle : n ≤ d.entries.length - d.pos := by
          rw [← hn]
          split
          · exact Nat.le_refl _
          · omega
        refine ⟨rfl, by omega, ?_⟩
        simp only [Option.getD_some]
        rw [← List.take_add]
    obtain ⟨h1, h2, h3⟩ := hstep
    obtain ⟨i1, i2, i3⟩ := ih (d.readdir c).2 (by rw [h1]; exact h2)
    rw [h1] at i1 i2 i3
    refine ⟨i1, i2, ?_⟩
    simp only [OpenDir.run, List.flatMap_cons]
    rw [← List.append_assoc, h3]
    exact i3

/-- **C128** (directories).  A call with a count that is not positive returns all the rest; a call with a positive count returns that many entries if there are
that many, and `io.EOF` only when there are none left. -/
theorem readdir_exact {α : Type} (d : OpenDir α) (c : Int) :
    (c ≤ 0 → (d.readdir c).1 = some (d.entries.drop d.pos)) ∧
    (0 < c → d.pos = d.entries.length → (d.readdir c).1 = none) ∧
    (0 < c → d.pos < d.entries.length → (d.readdir c).1 = some ((d.entries.drop d.pos).take c.toNat)) := by
  unfold OpenDir.readdir
  refine ⟨fun hc => ?_, fun hc hp => ?_, fun hc hp => ?_⟩
  · rw [if_neg (by omega)]
    dsimp only
    rw [if_pos (.inl hc), List.take_of_length_le (by simp)]
  · rw [if_pos (by omega)]
  · rw [if_neg (by omega)]
    dsimp only
    split
    · rw [List.take_of_length_le (by simp), List.take_of_length_le (by simp; omega)]
    · rfl

example : (OpenDir.run ⟨[1, 2, 3], 0⟩ [2, 5, 1]).1 = [some [1, 2], some [3], none] := by decide

end Appdash
