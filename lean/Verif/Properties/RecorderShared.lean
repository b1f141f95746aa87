import Verif.Proofs.RecorderShared

/-!
# Properties of a `Recorder` used by several goroutines

The English statements are C98 and C99 in properties.jsonl.
-/

namespace Appdash

open Spec

variable {logger : Bool} {prog : List (List RecOp)} {h : List (Nat × RecAct)} {s : SharedRec}

/-! ## C98: errors are reported exactly once; annotations arrive exactly once -/

/-- Without a logger: when all calls have returned, what the calls of `Errors` returned and what the next would return are together exactly
the errors met, each as often as it was met. -/
theorem shared_errors (r : SharedRuns false (fun _ => True) (.new prog) h s) (hr : AllReturned s) :
    (h.flatMap tookBy ++ s.errors).Perm ((h.filterMap metBy).map Prod.snd) := by
  have := shared_noted rfl r
  rw [returned_flatMap _ (fun _ => rfl) hr, List.append_nil] at this
  exact this

/-- At any time: no error is returned that was not met, and none is returned twice. -/
theorem shared_errors_any_time (r : SharedRuns false (fun _ => True) (.new prog) h s) :
    ∃ pending, (h.flatMap tookBy ++ s.errors ++ pending).Perm ((h.filterMap metBy).map Prod.snd) :=
  ⟨_, shared_noted rfl r⟩

/-- With a logger: when all calls have returned, exactly the errors met have been logged, with the methods that met them; `Errors` returns
none of them. -/
theorem shared_errors_logged (r : SharedRuns true (fun _ => True) (.new prog) h s) (hr : AllReturned s) :
    s.logged.Perm (h.filterMap metBy) ∧ h.flatMap tookBy ++ s.errors = [] := by
  have := shared_logged rfl r
  rw [returned_flatMap _ (fun _ => rfl) hr, List.append_nil] at this
  exact ⟨this, shared_logged_none rfl r⟩

/-- When all calls have returned, each error met has been reported to the collector once. -/
theorem shared_errors_collected (r : SharedRuns logger (fun _ => True) (.new prog) h s) (hr : AllReturned s) :
    (h.filterMap reportedBy).Perm (h.filterMap metBy) := by
  have := shared_reported rfl r
  rw [returned_flatMap _ (fun _ => rfl) hr, List.append_nil] at this
  exact this

/-- When all calls have returned, each goroutine has made its calls in order, and what it gave to `Annotation` has been sent, once and in
order. -/
theorem shared_annotations_sent (r : SharedRuns logger (fun _ => True) (.new prog) h s) (hr : AllReturned s) {k : Nat} {ops : List RecOp}
    (hk : prog[k]? = some ops) :
    h.filterMap (startedBy k) = ops ∧ h.filterMap (sentBy k) = ops.filterMap annotationArgs := by
  constructor
  · obtain ⟨th, h1, h2⟩ := shared_started rfl r hk
    rw [(hr th (List.mem_of_getElem? h1)).2, List.append_nil] at h2
    exact h2
  · obtain ⟨th, h1, h2⟩ := shared_sent rfl r hk
    obtain ⟨h3, h4⟩ := hr th (List.mem_of_getElem? h1)
    obtain ⟨pc, todo⟩ := th
    subst h3 h4
    rw [← h2]
    simp [unsent]

/-- No call waits for another: a goroutine with a call to finish or to make can go on whatever the others do, and the goroutines make at most
six steps per call. -/
theorem shared_calls_return (r : SharedRuns logger (fun _ => True) (.new prog) h s) :
    (∀ (i : Nat) (th : RecThread), s.threads[i]? = some th → ¬ (th.pc = .idle ∧ th.todo = []) → ∃ a s', SharedStep logger s i a s') ∧
    h.length ≤ 6 * (prog.map List.length).sum := by
  refine ⟨fun i th hi hn => shared_can_step hi hn, ?_⟩
  have h1 := stepsLeft_runs r
  have h2 : (((SharedRec.new prog).threads).map stepsLeft).sum = 6 * (prog.map List.length).sum := by
    simp only [SharedRec.new, List.map_map]
    clear r h1
    induction prog with
    | nil => rfl
    | cons a l ih =>
      simp only [List.map_cons, List.sum_cons, ih, Function.comp, stepsLeft]
      omega
  omega

/-- One goroutine meets an error in `Event`, another in `Annotation`; a third takes the errors in between. -/
example : ∃ h s, SharedRuns false (fun _ => True)
    (.new [[.event (.error (.other b!"bad"))], [.annotation [⟨b!"k", b!"v"⟩]], [.errors]]) h s ∧ AllReturned s ∧
    h.flatMap tookBy = [.other b!"down"] ∧ s.errors = [.other b!"bad"] ∧
    (h.filterMap metBy).map Prod.snd = [.other b!"bad", .other b!"down"] := by
  refine ⟨_, _, SharedRuns.nil.snoc (.eventBad (i := 0) rfl) trivial |>.snoc (.annotation (i := 1) rfl) trivial |>.snoc
    (.sendFail (i := 1) (err := .other b!"down") rfl) trivial |>.snoc (.report (i := 0) (as := []) rfl) trivial |>.snoc
    (.report (i := 1) (as := []) rfl) trivial |>.snoc (.note (i := 1) rfl) trivial |>.snoc (.takeErrors (i := 2) rfl) trivial |>.snoc
    (.note (i := 0) rfl) trivial, ?_, rfl, rfl, rfl⟩
  intro th hth
  simp [SharedRec.move, SharedRec.new] at hth
  rcases hth with rfl | rfl | rfl <;> exact ⟨rfl, rfl⟩

/-! ## C99: events and `Finish` in several goroutines -/

/-- What one might expect of `Event` and `Finish` in several goroutines: (1) `Finish` sends once, however often it is called; (2) if
goroutines record events and, when they have all returned, `Finish` is called, then all events are sent. -/
def SharedEventsStatement : Prop :=
  (∀ logger prog h s, SharedRuns logger (fun _ => True) (.new prog) h s → (h.filterMap finishSent).length ≤ 1) ∧
  (∀ logger prog h s h' s', SharedRuns logger (fun _ => True) (.new prog) h s → AllReturned s → (∀ ops ∈ prog, RecOp.finish ∉ ops) →
    SharedRuns logger (fun _ => True) { s with threads := [⟨.idle, [.finish]⟩] } h' s' → AllReturned s' →
    ∃ as, h'.filterMap finishSent = [as] ∧ as.Perm (h.flatMap eventBegun))

/-- Two calls of `Finish` may both send, and neither reports that it was not the only one. -/
theorem shared_finish_twice : ∃ h s, SharedRuns false (fun _ => True) (.new [[.finish], [.finish]]) h s ∧ AllReturned s ∧
    h.filterMap finishSent = [[], []] ∧ h.filterMap metBy = [] ∧ s.errors = [] := by
  refine ⟨_, _, SharedRuns.nil.snoc (.finishFirst (i := 0) rfl rfl) trivial |>.snoc (.finishFirst (i := 1) rfl rfl) trivial |>.snoc
    (.finishMark (i := 0) rfl) trivial |>.snoc (.finishMark (i := 1) rfl) trivial |>.snoc
    (.finishTake (i := 0) rfl) trivial |>.snoc (.finishTake (i := 1) rfl) trivial |>.snoc (.sendOk (i := 0) rfl) trivial |>.snoc
    (.sendOk (i := 1) rfl) trivial, ?_, rfl, rfl, rfl⟩
  intro th hth
  simp [SharedRec.move, SharedRec.new] at hth
  rcases hth with rfl | rfl <;> exact ⟨rfl, rfl⟩

/-- An event may be lost although the call of `Event` has returned before `Finish` is called, and no error is met. -/
theorem shared_event_lost (a b : Annotation) : ∃ h s h' s',
    SharedRuns false (fun _ => True) (.new [[.event (.ok [a])], [.event (.ok [b])]]) h s ∧ AllReturned s ∧
    h.flatMap eventBegun = [a, b] ∧ SharedRuns false (fun _ => True) { s with threads := [⟨.idle, [.finish]⟩] } h' s' ∧ AllReturned s' ∧
    h'.filterMap finishSent = [[b]] ∧ (h ++ h').filterMap metBy = [] := by
  refine ⟨_, _, _, _, SharedRuns.nil.snoc (.eventRead (i := 0) rfl) trivial |>.snoc (.eventRead (i := 1) rfl) trivial |>.snoc
    (.eventWrite (i := 0) rfl) trivial |>.snoc (.eventWrite (i := 1) rfl) trivial, ?_, rfl,
    SharedRuns.nil.snoc (.finishFirst (i := 0) rfl rfl) trivial |>.snoc (.finishMark (i := 0) rfl) trivial |>.snoc
    (.finishTake (i := 0) rfl) trivial |>.snoc (.sendOk (i := 0) rfl) trivial, ?_, rfl, rfl⟩
  · intro th hth
    simp [SharedRec.move, SharedRec.new] at hth
    rcases hth with rfl | rfl <;> exact ⟨rfl, rfl⟩
  · intro th hth
    simp [SharedRec.move, SharedRec.new] at hth
    subst hth
    exact ⟨rfl, rfl⟩

theorem shared_events_false : ¬ SharedEventsStatement := by
  rintro ⟨h1, -⟩
  obtain ⟨h, s, r, -, e, -⟩ := shared_finish_twice
  have := h1 _ _ _ _ r
  rw [e] at this
  simp at this

/-- Neither half of the statement holds. -/
theorem shared_events_lost_false : ¬ (∀ prog h s h' s', SharedRuns false (fun _ => True) (.new prog) h s → AllReturned s →
    (∀ ops ∈ prog, RecOp.finish ∉ ops) →
    SharedRuns false (fun _ => True) { s with threads := [⟨.idle, [.finish]⟩] } h' s' → AllReturned s' →
    ∃ as, h'.filterMap finishSent = [as] ∧ as.Perm (h.flatMap eventBegun)) := by
  intro hall
  obtain ⟨h, s, h', s', r, hr, he, r', hr', hs, -⟩ := shared_event_lost ⟨b!"a", b!"1"⟩ ⟨b!"b", b!"2"⟩
  obtain ⟨as, h1, h2⟩ := hall _ h s h' s' r hr (by simp) r' hr'
  rw [hs] at h1
  injection h1 with h1
  rw [he, ← h1] at h2
  simpa using h2.length_eq

theorem firstBegun_iff {x : Nat × RecAct} : firstBegun x = true ↔ ∃ j, x = (j, .began .finish) := by
  obtain ⟨j, a⟩ := x
  cases a <;> simp [firstBegun]
  rename_i op
  cases op <;> simp

/-- If `Event` and `Finish` are never executed by two goroutines at once, the first `Finish` sends what all events recorded before it
recorded, in order, and nothing else is sent by any `Finish`; other calls of `Finish` find that it was called. -/
theorem shared_exclusive_partial (r : SharedRuns logger Exclusive (.new prog) h s) (hr : AllReturned s) {i : Nat}
    {h1 h2 : List (Nat × RecAct)} (e : h = h1 ++ (i, .began .finish) :: h2) (hf : ∀ j, (j, .began .finish) ∉ h1) :
    h.filterMap finishSent = [h1.flatMap eventBegun] ∧ ∀ j, (j, .began .finish) ∉ h2 := by
  have E := (shared_excl rfl r).1
  have hn : ∀ x ∈ h1, firstBegun x = false := by
    intro x hx
    cases hb : firstBegun x with
    | false => rfl
    | true =>
      obtain ⟨j, rfl⟩ := firstBegun_iff.1 hb
      exact absurd hx (hf j)
  have hany : h.any firstBegun = true := by
    rw [List.any_eq_true]
    exact ⟨(i, .began .finish), by rw [e]; simp, rfl⟩
  have hbf : beforeFinish h = h1.flatMap eventBegun := by
    unfold beforeFinish
    rw [e, List.takeWhile_append_of_pos (by intro x hx; rw [hn x hx]; rfl)]
    simp [firstBegun]
  constructor
  · have hc := E.count
    rw [returned_flatMap _ (fun _ => rfl) hr, returned_flatMap _ (fun _ => rfl) hr, returned_flatMap _ (fun _ => rfl) hr, hany] at hc
    simp only [List.length_nil, Nat.zero_add, if_true] at hc
    obtain ⟨as, has⟩ := List.length_eq_one_iff.1 hc
    rw [has, E.sent as (by rw [has]; simp), hbf]
  · intro j hj
    have := shared_first rfl r
    rw [e, List.filter_append, List.filter_cons_of_pos (by rfl)] at this
    have hp : 0 < (h2.filter firstBegun).length := List.length_pos_of_mem (List.mem_filter.2 ⟨hj, rfl⟩)
    simp only [List.length_append, List.length_cons] at this
    omega

/-- Without a call of `Finish`, no `Finish` sends anything. -/
theorem shared_unfinished_partial (r : SharedRuns logger Exclusive (.new prog) h s) (hf : ∀ j, (j, .began .finish) ∉ h) :
    h.filterMap finishSent = [] := by
  have hc := (shared_excl rfl r).1.count
  have hany : h.any firstBegun = false := by
    rw [List.any_eq_false]
    intro x hx hb
    obtain ⟨j, rfl⟩ := firstBegun_iff.1 hb
    exact hf j hx
  rw [hany] at hc
  simp only [Bool.false_eq_true, if_false, Nat.add_eq_zero_iff, List.length_eq_zero_iff] at hc
  exact hc.2

/-- If only goroutine `k` calls `Event` and `Finish`, the others may call anything else at the same time: the first `Finish` sends what the
events recorded before it recorded, in order. -/
theorem shared_owner_partial (r : SharedRuns logger (fun _ => True) (.new prog) h s) (hr : AllReturned s) {k : Nat} {ops1 ops2 : List RecOp}
    (hk : prog[k]? = some (ops1 ++ .finish :: ops2)) (hf : RecOp.finish ∉ ops1)
    (ho : ∀ (j : Nat) ops, j ≠ k → prog[j]? = some ops → RecOp.finish ∉ ops ∧ ∀ as, RecOp.event (.ok as) ∉ ops) :
    h.filterMap finishSent = [ops1.flatMap eventAnnotations] := by
  have hO : OnlyBy k (.new prog) := by
    intro j th hj hth
    simp only [SharedRec.new, List.getElem?_map, Option.map_eq_some_iff] at hth
    obtain ⟨ops, hops, rfl⟩ := hth
    refine ⟨id, fun op hop => ?_⟩
    obtain ⟨n1, n2⟩ := ho j ops hj hops
    cases op with
    | event r =>
      cases r with
      | ok as => exact absurd hop (n2 as)
      | error e => rfl
    | annotation as => rfl
    | finish => exact absurd hop n1
    | errors => rfl
  have rX := (onlyBy_runs hO r).1
  have hst := (shared_annotations_sent r hr hk).1
  -- the acts of the other goroutines record no events and are no calls of `Finish`
  have hother : ∀ x ∈ h, x.1 ≠ k → firstBegun x = false ∧ eventBegun x = [] := by
    intro x hx hne
    obtain ⟨j, a⟩ := x
    cases a with
    | began op =>
      have hlt : ∃ ops, prog[j]? = some ops := by
        have := (shared_act_thread rfl r).2 _ hx
        exact ⟨_, List.getElem?_eq_getElem this⟩
      obtain ⟨ops, hops⟩ := hlt
      have hmem : op ∈ ops := by
        rw [← (shared_annotations_sent r hr hops).1, List.mem_filterMap]
        exact ⟨_, hx, by simp [startedBy]⟩
      obtain ⟨n1, n2⟩ := ho j ops hne hops
      cases op with
      | event r =>
        cases r with
        | ok as => exact absurd hmem (n2 as)
        | error e => exact ⟨rfl, rfl⟩
      | annotation as => exact ⟨rfl, rfl⟩
      | finish => exact absurd hmem n1
      | errors => exact ⟨rfl, rfl⟩
    | _ => exact ⟨rfl, rfl⟩
  obtain ⟨h1, h2, e, e1, e2⟩ := List.filterMap_eq_append_iff.1 hst
  obtain ⟨g1, x, g2, e3, n3, e4, -⟩ := List.filterMap_eq_cons_iff.1 e2
  have eh : h = (h1 ++ g1) ++ x :: g2 := by rw [e, e3]; simp
  have hg : (h1 ++ g1).filterMap (startedBy k) = ops1 := by
    rw [List.filterMap_append, e1, List.filterMap_eq_nil_iff.2 n3, List.append_nil]
  have hno : ∀ j, (j, .began .finish) ∉ h1 ++ g1 := by
    intro j hj
    have hjk : j = k := by
      by_contra hne
      have := (hother _ (by rw [eh]; exact List.mem_append_left _ hj) hne).1
      cases this
    subst hjk
    apply hf
    rw [← hg, List.mem_filterMap]
    exact ⟨_, hj, by simp [startedBy]⟩
  have hx : x = (k, .began .finish) := by
    obtain ⟨j, a⟩ := x
    cases a with
    | began op =>
      simp only [startedBy] at e4
      split at e4
      · rename_i hjk
        injection e4 with e4
        rw [hjk, e4]
      · cases e4
    | badEvent err => simp [startedBy] at e4
    | took errs => simp [startedBy] at e4
    | sent fin as ans => simp [startedBy] at e4
    | reported m err as => simp [startedBy] at e4
    | internal => simp [startedBy] at e4
    | finishAgain =>
      exfalso
      obtain ⟨s1, s2, r1, st⟩ := shared_split rX eh
      cases st with
      | finishAgain _ hfin =>
        obtain ⟨ha, -⟩ := (shared_excl rfl r1).1.finished.1 hfin
        obtain ⟨y, hy, hb⟩ := List.any_eq_true.1 ha
        obtain ⟨j', rfl⟩ := firstBegun_iff.1 hb
        exact hno j' hy
  subst hx
  rw [(shared_exclusive_partial rX hr eh hno).1, ← hg]
  have : ∀ l : List (Nat × RecAct), (∀ x ∈ l, x ∈ h) → l.flatMap eventBegun = (l.filterMap (startedBy k)).flatMap eventAnnotations := by
    intro l hl
    induction l with
    | nil => rfl
    | cons x l ih =>
      rw [List.flatMap_cons, ih fun y hy => hl y (List.mem_cons_of_mem _ hy)]
      have hx := hl x List.mem_cons_self
      by_cases hk' : x.1 = k
      · obtain ⟨j, a⟩ := x
        simp only at hk'
        subst hk'
        cases a <;> simp [List.filterMap_cons, startedBy, eventBegun, eventAnnotations]
      · have hsn : startedBy k x = none := by
          obtain ⟨j, a⟩ := x
          simp only at hk'
          cases a <;> simp [startedBy, hk']
        rw [(hother x hx hk').2, List.filterMap_cons_none hsn, List.nil_append]
  rw [this _ fun y hy => by rw [eh]; exact List.mem_append_left _ hy]

/-- Goroutine 0 records and finishes; goroutine 1 meanwhile sends an annotation of its own. -/
example : ∃ h s, SharedRuns false (fun _ => True)
    (.new [[.event (.ok [⟨b!"a", b!"1"⟩]), .finish], [.annotation [⟨b!"k", b!"v"⟩]]]) h s ∧ AllReturned s ∧
    h.filterMap finishSent = [[⟨b!"a", b!"1"⟩]] ∧ h.filterMap (sentBy 1) = [[⟨b!"k", b!"v"⟩]] := by
  refine ⟨_, _, SharedRuns.nil.snoc (.eventRead (i := 0) rfl) trivial |>.snoc (.annotation (i := 1) rfl) trivial |>.snoc
    (.eventWrite (i := 0) rfl) trivial |>.snoc (.finishFirst (i := 0) rfl rfl) trivial |>.snoc (.finishMark (i := 0) rfl) trivial |>.snoc
    (.sendOk (i := 1) rfl) trivial |>.snoc (.finishTake (i := 0) rfl) trivial |>.snoc (.sendOk (i := 0) rfl) trivial, ?_, rfl, rfl⟩
  intro th hth
  simp [SharedRec.move, SharedRec.new] at hth
  rcases hth with rfl | rfl <;> exact ⟨rfl, rfl⟩

/-- Two goroutines record events one after the other, and then both call `Finish` one after the other: no step is made while another
goroutine is within a call. -/
example : ∃ h s, SharedRuns false Exclusive (.new [[.event (.ok [⟨b!"a", b!"1"⟩]), .finish], [.event (.ok [⟨b!"b", b!"2"⟩]), .finish]]) h s ∧
    h.filterMap finishSent = [[⟨b!"b", b!"2"⟩, ⟨b!"a", b!"1"⟩]] ∧ h.filterMap metBy = [(.finish, .multipleFinish)] := by
  have ex : ∀ {a b : RecThread} {as fin errs lg}, ¬ (Within a.pc ∧ Within b.pc) → Exclusive ⟨as, fin, errs, lg, [a, b]⟩ := by
    intro a b as fin errs lg hn i j x y hi hj wx wy
    match i, j with
    | 0, 0 => rfl
    | 1, 1 => rfl
    | 0, 1 => cases hi; cases hj; exact absurd ⟨wx, wy⟩ hn
    | 1, 0 => cases hi; cases hj; exact absurd ⟨wy, wx⟩ hn
    | 0, j + 2 => cases hj
    | 1, j + 2 => cases hj
    | i + 2, _ => cases hi
  refine ⟨_, _, SharedRuns.nil.snoc (.eventRead (i := 1) rfl) (ex (by simp [Within])) |>.snoc
    (.eventWrite (i := 1) rfl) (ex (by simp [Within])) |>.snoc (.eventRead (i := 0) rfl) (ex (by simp [Within])) |>.snoc
    (.eventWrite (i := 0) rfl) (ex (by simp [Within])) |>.snoc (.finishFirst (i := 1) rfl rfl) (ex (by simp [Within])) |>.snoc
    (.finishMark (i := 1) rfl) (ex (by simp [Within])) |>.snoc (.finishAgain (i := 0) rfl rfl) (ex (by simp [Within])) |>.snoc
    (.finishTake (i := 1) rfl) (ex (by simp [Within])) |>.snoc (.sendOk (i := 1) rfl) (ex (by simp [Within])), rfl, rfl⟩

end Appdash
